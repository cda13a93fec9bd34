import Verif.Lemmas.Hashmap
/-! C16, C17, C18, C62: hash maps. -/
namespace Wizard.Props
open Wizard Wizard.Spec

/-- One call of the C interface; the value `get` and `remove` return, 0 for the others. -/
def hashExec (o : HashOps) (m : HMap) : MapOp → Res (Nat × HMap)
  | .put k v => do let (_, m) ← putInHashmap o m k v; .ok (0, m)
  | .get k => getFromHashmap o m k
  | .remove k => removeFromHashmap o m k
  | .reset => .ok (0, resetHashmap m)
  | .next => do let (_, m) ← getNextEntry m; .ok (0, m)

/-- A history of calls. -/
def hashRun (o : HashOps) (m : HMap) : List MapOp → Res (List Nat × HMap)
  | [] => .ok ([], m)
  | op :: ops => do
    let (v, m) ← hashExec o m op
    let (vs, m) ← hashRun o m ops
    .ok (v :: vs, m)

theorem hash_step {o m s} (he : Spec.Equiv o.same) (h : HInv o m s) (op : MapOp) :
    (hashExec o m op).Ok fun r => r.1 = (Bindings.step o.same s op).1 ∧
      HInv o r.2 (Bindings.step o.same s op).2 := by
  cases op with
  | put k v =>
    refine (put_ok he h k v).bind fun r hr => ⟨_, rfl, ?_⟩
    simp only [Bindings.step]
    split <;> rename_i hk <;> simp only [hk, if_true, if_false] at hr <;> exact ⟨rfl, hr.1⟩
  | get k =>
    refine (get_ok he h k).mono fun r hr => ?_
    simp only [Bindings.step]
    split <;> rename_i hk <;> simp only [hk, if_true, if_false] at hr <;> exact ⟨hr.1, hr.2.1⟩
  | remove k =>
    refine (remove_ok he h k).mono fun r hr => ?_
    simp only [Bindings.step]
    split <;> rename_i hk <;> simp only [hk, if_true, if_false] at hr <;> exact ⟨hr.1, hr.2.1⟩
  | reset => exact ⟨_, rfl, rfl, h.pos, h.len, h.placed, h.hash, h.nonnull, h.distinct, h.perm⟩
  | next => exact (next_safe he h).bind fun r hr => ⟨_, rfl, rfl, hr.1⟩

theorem hash_run {o m s} (he : Spec.Equiv o.same) (h : HInv o m s) (ops : List MapOp) :
    (hashRun o m ops).Ok fun r => r.1 = (Bindings.run o.same s ops).1 ∧
      HInv o r.2 (Bindings.run o.same s ops).2 := by
  induction ops generalizing m s with
  | nil => exact ⟨_, rfl, rfl, h⟩
  | cons op ops ih =>
    refine (hash_step he h op).bind fun r hr => ?_
    refine (ih hr.2).bind fun r' hr' => ⟨_, rfl, ?_, hr'.2⟩
    simp only [Bindings.run]
    rw [hr.1, hr'.1]

/-- The callbacks `o` implement the key equality `same`: either they compare keys with `same` and the
hash respects it, or there is no comparison callback and keys are the same when their hashes are. -/
def Implements (o : HashOps) (same : Nat → Nat → Bool) : Prop :=
  (o.compare = some same ∧ ∀ a b, same a b = true → o.hash a = o.hash b) ∨
  (o.compare = none ∧ ∀ a b, same a b = decide (o.hash b = o.hash a))

theorem implements_same {o : HashOps} {same : Nat → Nat → Bool} (h : Implements o same) :
    o.same = same := by
  funext a b
  unfold HashOps.same
  rcases h with ⟨h1, h2⟩ | ⟨h1, h2⟩
  · rw [h1]
    split
    · rfl
    · rename_i hn
      cases hs : same a b
      · rfl
      · exact absurd (h2 a b hs).symm hn
  · rw [h1, h2]
    split <;> simp [*]

/-- **C16** A hash map of any non-zero capacity, with any hash function that respects the key
comparison (or none, keys then being compared by hash), behaves as a finite map: for every history of
puts, lookups, removals and iterator steps, every lookup and removal returns what the map of bindings
says, through any number of rehashes. -/
theorem C16_map {o : HashOps} {same : Nat → Nat → Bool} {capacity : Nat} (hc : 0 < capacity)
    (he : Spec.Equiv same) (ho : Implements o same) (ops : List MapOp) :
    ∃ m, hashRun o (newHashmap capacity) ops = .ok ((Bindings.run same [] ops).1, m) := by
  have hs := implements_same ho
  obtain ⟨r, h1, h2, _⟩ := hash_run (hs ▸ he) (new_ok o hc) ops
  exact ⟨r.2, by rw [h1, ← hs, ← h2]⟩

/-- A put of a non-NULL binding reports success as long as there is a larger table to grow to. -/
theorem C16_put_succeeds {o : HashOps} {same : Nat → Nat → Bool} {capacity : Nat} (hc : 0 < capacity)
    (he : Spec.Equiv same) (ho : Implements o same) (ops : List MapOp) {vs m}
    (hm : hashRun o (newHashmap capacity) ops = .ok (vs, m)) {k v : Nat} (hk : k ≠ 0) (hv : v ≠ 0)
    (hcap : m.capacity < 4194301) :
    ∃ m', putInHashmap o m k v = .ok (true, m') := by
  have hs := implements_same ho
  obtain ⟨r, h1, _, h3⟩ := hash_run (hs ▸ he) (new_ok o hc) ops
  rw [hm] at h1; cases h1
  obtain ⟨r, h4, _, _, _, h5⟩ := put_ok (hs ▸ he) h3 k v
  refine ⟨r.2, ?_⟩
  rw [h4]
  cases hr : r.1 with
  | true => rw [← hr]
  | false =>
    rcases h5 hr with h | h | h
    · exact absurd h hk
    · exact absurd h hv
    · exact absurd h (nextCapacity_some hcap)

/-- The hypotheses are met: three keys that collide in a table of two buckets (which grows). -/
example : Implements ⟨fun _ => 4, some (· == ·)⟩ (· == ·) ∧ Spec.Equiv (fun a b : Nat => a == b) :=
  ⟨.inl ⟨rfl, by simp⟩, by simp, by intro a b; simp; omega, by simp⟩

example : (Bindings.run (· == ·) [] [.put 1 10, .put 2 20, .put 3 30, .put 1 11, .get 2, .remove 2,
    .get 1, .get 2]).1 = [0, 0, 0, 0, 20, 20, 11, 0] := rfl

/-! ### C17: the number of entries -/

/-- The puts of a history bind only keys that are not bound at that time. -/
def NoOverwrite (same : Nat → Nat → Bool) (s : Bindings) : List MapOp → Prop
  | [] => True
  | op :: ops => (∀ k v, op = .put k v → ∀ b ∈ s, same k b.1 = false) ∧
      NoOverwrite same (Bindings.step same s op).2 ops

/-- Every put of a history reports success. -/
def PutsSucceed (o : HashOps) (m : HMap) : List MapOp → Prop
  | [] => True
  | op :: ops =>
    (∀ k v, op = .put k v → k ≠ 0 → v ≠ 0 → ∃ m', putInHashmap o m k v = .ok (true, m')) ∧
      ∀ v m', hashExec o m op = .ok (v, m') → PutsSucceed o m' ops

theorem without_absent {same : Nat → Nat → Bool} {s : Bindings} {k : Nat}
    (h : ∀ b ∈ s, same k b.1 = false) : Bindings.without same s k = s := by
  unfold Bindings.without
  rw [List.filter_eq_self]; intro b hb; simp [h b hb]

theorem without_length {o m s k} (he : Spec.Equiv o.same) (h : HInv o m s) :
    (Bindings.lookup o.same s k = 0 → Bindings.without o.same s k = s) ∧
    (Bindings.lookup o.same s k ≠ 0 → (Bindings.without o.same s k).length + 1 = s.length) := by
  by_cases hx : ∃ e ∈ m.flat, o.same k e.key = true
  · obtain ⟨e, hx, hs⟩ := hx
    obtain ⟨xs, ys, hxy⟩ := List.append_of_mem hx
    have hp : m.flat.Perm (e :: (xs ++ ys)) := by rw [hxy]; exact List.perm_middle
    have hR := rest_present he h hp hs
    have h1 := hR.perm.length_eq
    have h2 := hp.length_eq
    have h3 := h.perm.length_eq
    rw [lookup_mid he h.distinct h.perm hx hs]
    refine ⟨fun h0 => absurd h0 (h.nonnull e hx).2, fun _ => ?_⟩
    simp [bind2] at h1 h2 h3
    omega
  · have hn := lookup_none (k := k) h.perm fun e hm => by
      rw [← Bool.not_eq_true]; exact fun hs => hx ⟨e, hm, hs⟩
    exact ⟨fun _ => hn.2, fun h0 => absurd hn.1 h0⟩

theorem count_run {o m s} (he : Spec.Equiv o.same) (h : HInv o m s) (hn : m.entries = s.length)
    (ops : List MapOp) (hno : NoOverwrite o.same s ops) (hput : PutsSucceed o m ops)
    (hsize : s.length + ops.length < 2 ^ 64) :
    (hashRun o m ops).Ok fun r => r.2.entries = (Bindings.run o.same s ops).2.length := by
  induction ops generalizing m s with
  | nil => exact ⟨_, rfl, hn⟩
  | cons op ops ih =>
    have key : (hashExec o m op).Ok fun r => HInv o r.2 (Bindings.step o.same s op).2 ∧
        r.2.entries = (Bindings.step o.same s op).2.length ∧
        (Bindings.step o.same s op).2.length ≤ s.length + 1 := by
      obtain ⟨r, h1, h2, h3⟩ := hash_step he h op
      refine ⟨r, h1, h3, ?_⟩
      simp at hsize
      cases op with
      | put k v =>
        simp only [Bindings.step]
        split
        · rename_i hk
          obtain ⟨r', h4, h5, h6, h7, h8⟩ := put_ok he h k v
          have h9 : putInHashmap o m k v = .ok (false, m) := by
            unfold putInHashmap; rw [if_pos hk]
          rw [h4] at h9; cases h9
          simp only [hashExec, h4, Res.ok_bind] at h1; cases h1
          exact ⟨hn, Nat.le_succ _⟩
        · rename_i hk
          simp only [not_or] at hk
          obtain ⟨m', h9⟩ := hput.1 k v rfl hk.1 hk.2
          obtain ⟨r', h4, h5, h6, h7, h8⟩ := put_ok he h k v
          rw [h9] at h4; cases h4
          simp only [hashExec, h9, Res.ok_bind] at h1; cases h1
          rw [without_absent (hno.1 k v rfl)]
          refine ⟨?_, by simp⟩
          have := h7 rfl
          simp only [] at this ⊢
          rw [this, hn, incSize, if_neg (by omega)]; simp
      | get k =>
        obtain ⟨r', h4, h5, h6, h7⟩ := get_ok he h k
        simp only [hashExec] at h1
        rw [h4] at h1; cases h1
        simp only [Bindings.step]
        split <;> exact ⟨by rw [h7, hn], by simp⟩
      | remove k =>
        obtain ⟨r', h4, h5, h6, h7, h8⟩ := remove_ok he h k
        simp only [hashExec] at h1
        rw [h4] at h1; cases h1
        simp only [Bindings.step]
        split
        · rename_i hk
          simp only [hk, if_true] at h5
          exact ⟨by rw [h7 h5, hn], by simp⟩
        · rename_i hk
          simp only [hk, if_false] at h5
          obtain ⟨h9, h10⟩ := without_length (k := k) he h
          by_cases h0 : Bindings.lookup o.same s k = 0
          · rw [h9 h0]
            exact ⟨by rw [h7 (h5.trans h0), hn], by simp⟩
          · have := h10 h0
            refine ⟨?_, by simp only []; omega⟩
            rw [h8 (h5 ▸ h0), hn, decSize, if_neg (by omega)]
            simp only []; omega
      | reset => cases h1; exact ⟨hn, by simp [Bindings.step]⟩
      | next =>
        obtain ⟨r', h4, h5, h6⟩ := next_safe he h
        simp only [hashExec, h4, Res.ok_bind] at h1; cases h1
        exact ⟨by simp [Bindings.step, h6, hn], by simp [Bindings.step]⟩
    obtain ⟨r, h1, h2, h3, h4⟩ := key
    have h5 := ih h2 h3 hno.2 (hput.2 r.1 r.2 h1) (by simp at hsize; omega)
    obtain ⟨r', h6, h7⟩ := h5
    refine ⟨(r.1 :: r'.1, r'.2), ?_, h7⟩
    simp only [hashRun, h1, Res.ok_bind, h6]

/-- **C17** (without overwriting) After any history in which no put rebinds a key that is bound and
every put reports success, the entry counter is the number of bindings. -/
theorem C17_count_partial {o : HashOps} {same : Nat → Nat → Bool} {capacity : Nat}
    (hc : 0 < capacity) (he : Spec.Equiv same) (ho : Implements o same) (ops : List MapOp)
    (hno : NoOverwrite same [] ops) (hput : PutsSucceed o (newHashmap capacity) ops)
    (hsize : ops.length < 2 ^ 64) :
    ∃ vs m, hashRun o (newHashmap capacity) ops = .ok (vs, m) ∧
      m.entries = (Bindings.run same [] ops).2.length := by
  have hs := implements_same ho
  obtain ⟨r, h1, h2⟩ := count_run (hs ▸ he) (new_ok o hc) rfl ops (hs ▸ hno) hput
    (by simpa using hsize)
  exact ⟨r.1, r.2, h1, by rw [h2, hs]⟩

/-- **C17 is false on overwriting**: whenever a put rebinds a key, the counter goes up although the
number of bindings does not change. -/
theorem C17_overwrite_violated {o : HashOps} {same : Nat → Nat → Bool} {capacity : Nat}
    (hc : 0 < capacity) (he : Spec.Equiv same) (ho : Implements o same) (ops : List MapOp) {vs m}
    (hm : hashRun o (newHashmap capacity) ops = .ok (vs, m)) {k v : Nat} (hk : k ≠ 0) (hv : v ≠ 0)
    (hb : Bindings.lookup same (Bindings.run same [] ops).2 k ≠ 0)
    (hlt : m.entries + 1 < 2 ^ 64) {m'} (hp : putInHashmap o m k v = .ok (true, m')) :
    m'.entries = m.entries + 1 ∧
      (Bindings.step same (Bindings.run same [] ops).2 (.put k v)).2.length =
        (Bindings.run same [] ops).2.length := by
  have hs := implements_same ho
  subst hs
  obtain ⟨r, h1, _, h3⟩ := hash_run he (new_ok o hc) ops
  rw [hm] at h1; cases h1
  obtain ⟨r, h4, _, _, h5, _⟩ := put_ok he h3 k v
  rw [hp] at h4; cases h4
  refine ⟨?_, ?_⟩
  · have := h5 rfl
    simp only [] at this
    rw [this, incSize, if_neg (by omega)]
  · have h6 := (without_length (k := k) he h3).2 hb
    simp only [Bindings.step, hk, hv, or_self, if_false, List.length_cons]
    exact h6

/-- A concrete history: the same key put twice leaves one binding and a counter of two. -/
theorem C17_overwrite_example_violated :
    ∃ vs m, hashRun ⟨id, some (· == ·)⟩ (newHashmap 17) [.put 5 1, .put 5 2] = .ok (vs, m) ∧
      m.entries = 2 ∧ (Bindings.run (· == ·) [] [.put 5 1, .put 5 2]).2.length = 1 :=
  ⟨_, _, rfl, rfl, rfl⟩

example : NoOverwrite (· == ·) [] [.put 5 1, .put 6 2, .remove 5, .put 5 3] := by
  simp [NoOverwrite, Bindings.step, Bindings.without]

/-! ### C18: iteration -/

/-- `n` calls of `GetNextKeyInHashmap` / `GetNextValueInHashmap`. -/
def nexts : Nat → HMap → Res (List (Option Entry) × HMap)
  | 0, m => .ok ([], m)
  | n + 1, m => do
    let (e, m) ← getNextEntry m
    let (es, m) ← nexts n m
    .ok (e :: es, m)

theorem nexts_ok {o s} (he : Spec.Equiv o.same) (n : Nat) : ∀ {m}, HInv o m s → m.IterOk →
    (nexts n m).Ok fun r => r.1 = (List.range n).map (m.remaining[·]?) ∧ HInv o r.2 s := by
  induction n with
  | zero => exact fun h _ => ⟨_, rfl, rfl, h⟩
  | succ n ih =>
    intro m h hi
    refine (next_ok h hi).bind fun r hr => ?_
    have hI := hr.2.2.1.inv he h hr.2.2.2.1
    refine (ih hI hr.2.2.2.2.2).bind fun r' hr' => ⟨_, rfl, ?_, hr'.2⟩
    simp only []
    rw [List.range_succ_eq_map, List.map_cons, hr.1, hr'.1, hr.2.1, List.head?_eq_getElem?]
    simp [Function.comp_def]

/-- **C18** After any history of calls, resetting the iterator and stepping `n` times returns the
bindings of the map one after the other, each exactly once, and then NULL for ever: the sequence
`bs` of returned bindings is a permutation of the map's bindings, and the `i`-th step returns the
`i`-th of them. -/
theorem C18_iteration {o : HashOps} {same : Nat → Nat → Bool} {capacity : Nat} (hc : 0 < capacity)
    (he : Spec.Equiv same) (ho : Implements o same) (ops : List MapOp) :
    ∃ vs m, hashRun o (newHashmap capacity) ops = .ok (vs, m) ∧
      ∃ bs : Bindings, bs.Perm (Bindings.run same [] ops).2 ∧
        ∀ n, ∃ es m', nexts n (resetHashmap m) = .ok (es, m') ∧
          es.map (Option.map fun e => (e.key, e.value)) = (List.range n).map (bs[·]?) := by
  have hs := implements_same ho
  subst hs
  obtain ⟨r, h1, _, h3⟩ := hash_run he (new_ok o hc) ops
  refine ⟨r.1, r.2, h1, bind2 r.2.flat, h3.perm, fun n => ?_⟩
  have h4 : HInv o (resetHashmap r.2) (Bindings.run o.same [] ops).2 :=
    ⟨h3.pos, h3.len, h3.placed, h3.hash, h3.nonnull, h3.distinct, h3.perm⟩
  obtain ⟨r', h5, h6, _⟩ := nexts_ok he n h4 (by intro hh; simp [resetHashmap] at hh)
  refine ⟨r'.1, r'.2, h5, ?_⟩
  have hrem : (resetHashmap r.2).remaining = r.2.flat := by
    simp [HMap.remaining, resetHashmap, HMap.flat]
  rw [h6, hrem]
  simp [bind2, Function.comp_def]

/-! ### C62: lookups while iterating -/

/-- **C62 (the current key)** At any point of an iteration, looking up the key that the iterator has
just returned gives the value of that binding and leaves the map and its iterator exactly as they
were. -/
theorem C62_lookup_current_partial {o : HashOps} {same : Nat → Nat → Bool} {capacity : Nat}
    (hc : 0 < capacity) (he : Spec.Equiv same) (ho : Implements o same) (ops : List MapOp) {vs m}
    (hm : hashRun o (newHashmap capacity) ops = .ok (vs, m)) {n es m₁ e m₂}
    (h1 : nexts n (resetHashmap m) = .ok (es, m₁)) (h2 : getNextEntry m₁ = .ok (some e, m₂)) :
    getFromHashmap o m₂ e.key = .ok (e.value, m₂) := by
  have hs := implements_same ho
  subst hs
  obtain ⟨r, h3, _, h4⟩ := hash_run he (new_ok o hc) ops
  rw [hm] at h3; cases h3
  have h5 : HInv o (resetHashmap m) (Bindings.run o.same [] ops).2 :=
    ⟨h4.pos, h4.len, h4.placed, h4.hash, h4.nonnull, h4.distinct, h4.perm⟩
  obtain ⟨r', h6, _, h7⟩ := nexts_ok he n h5 (by intro hh; simp [resetHashmap] at hh)
  rw [h1] at h6; cases h6
  obtain ⟨r'', h8, h9, _⟩ := next_safe he h7
  rw [h2] at h8; cases h8
  obtain ⟨b, hb, hp, hg⟩ := nextLoop_at _ _ h2
  exact get_current he h9 hb hp hg

/-- **C62 is false for other keys**: looking up another key of the same bucket moves the iterator. In
a map of the keys 1, 2, 3, the second key is returned twice; looking up a key that is not in the map
ends the iteration early. -/
theorem C62_lookup_violated :
    ∃ (o : HashOps) (vs : List Nat) (m m₁ m₂ m₃ m₄ m₅ m₆ : HMap) (e₃ e₂ : Entry),
      Implements o (· == ·) ∧
      hashRun o (newHashmap 17) [.put 1 10, .put 2 20, .put 3 30, .reset] = .ok (vs, m) ∧
      getNextEntry m = .ok (some e₃, m₁) ∧ getNextEntry m₁ = .ok (some e₂, m₂) ∧
      getFromHashmap o m₂ e₃.key = .ok (e₃.value, m₃) ∧
      getNextEntry m₃ = .ok (some e₂, m₄) ∧
      getFromHashmap o m₁ 9 = .ok (0, m₅) ∧ getNextEntry m₅ = .ok (none, m₆) :=
  ⟨⟨fun _ => 0, some (· == ·)⟩, _, _, _, _, _, _, _, _, ⟨0, 3, 30⟩, ⟨0, 2, 20⟩,
    .inl ⟨rfl, by simp⟩, rfl, rfl, rfl, rfl, rfl, rfl, rfl⟩

end Wizard.Props

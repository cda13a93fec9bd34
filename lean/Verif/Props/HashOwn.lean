import Verif.Spec.HashOwn
import Verif.Props.Hashmap
import Verif.Props.LinkedList
import Verif.Props.SplayOwn
/-! C157, C158, C159: the keys and values a hash map or a linked list owns. -/
namespace Wizard.Props
open Wizard Wizard.Spec Wizard.Spec.HashOwn

/-- A hash map whose table has its size, with non-NULL bindings. -/
structure HashShape (m : HMap) : Prop where
  pos : 0 < m.capacity
  len : m.map.length = m.capacity
  nonnull : ∀ e ∈ m.flat, e.key ≠ 0 ∧ e.value ≠ 0

def HMap.pairs (m : HMap) : SMap := m.flat.map fun e => (e.key, e.value)

theorem balanced_add (own : Callbacks) {l l' new : SMap} (h : l'.Perm (new ++ l)) : OwnBalanced own (new.map Prod.fst) ((new.map Prod.snd).filter (· ≠ 0)) l {} l' := by
  refine ⟨fun _ => ?_, fun _ => ?_, fun _ => rfl, fun _ => rfl⟩
  · refine List.Perm.trans ?_ (h.map Prod.fst).symm
    rw [List.map_append]
    exact List.perm_append_comm
  · refine List.Perm.trans ?_ ((h.map Prod.snd).filter (fun x => decide (x ≠ 0))).symm
    rw [List.map_append, List.filter_append]
    exact List.perm_append_comm

theorem bucket_at {m : HMap} (h : HashShape m) (k : Nat) : ∃ b, bucketAt m k = .ok (k % m.capacity, b) ∧ m.map[k % m.capacity]? = some b := by
  have hl : k % m.capacity < m.map.length := by rw [h.len]; exact Nat.mod_lt _ h.pos
  refine ⟨m.map[k % m.capacity], ?_, List.getElem?_eq_getElem hl⟩
  unfold bucketAt
  rw [if_neg (Nat.pos_iff_ne_zero.1 h.pos), List.getElem?_eq_getElem hl]

theorem bucket_is {m : HMap} {k : Nat} {b : Option Bucket} (hc : m.capacity ≠ 0) (h : m.map[k % m.capacity]? = some b) : bucketAt m k = .ok (k % m.capacity, b) := by
  unfold bucketAt; rw [if_neg hc, h]

theorem replaced_split (o : HashOps) (key h : Nat) (b : Option Bucket) :
    match replacedEntry o key h b with
    | none => (putBucket o key h b).vals = bucketVals b
    | some e => (bucketVals b).Perm (e :: (putBucket o key h b).vals) := by
  cases b with
  | none => rfl
  | some b =>
    unfold replacedEntry putBucket
    rcases scan_spec o key h b.vals 0 with ⟨h1, h2⟩ | ⟨xs, e, ys, h1, h2, h3, h4⟩
    · simp only [h1, Option.map_none]; rfl
    · simp only [h4, Option.map_some]
      have hv : (Bucket.remove ⟨b.vals, 0 + xs.length + 1⟩ (0 + xs.length)).vals = xs ++ ys := by
        simp [Bucket.remove, h1, List.eraseIdx_append_of_length_le]
      rw [hv]
      show b.vals.Perm _
      rw [h1]
      exact List.perm_middle

theorem shape_of {m m' : HMap} (h : HashShape m) (hc : m'.capacity = m.capacity) (hl : m'.map.length = m.map.length) (hf : ∀ e ∈ m'.flat, e ∈ m.flat) : HashShape m' :=
  ⟨hc ▸ h.pos, by rw [hl, hc, h.len], fun e he => h.nonnull e (hf e he)⟩

theorem grow_shape {m : HMap} (h : HashShape m) (room : Room) : HashShape (growTable room m).2 ∧ (growTable room m).2.flat.Perm m.flat ∧
    (room.table = true → m.capacity < 4194301 → (growTable room m).1 = true) := by
  unfold growTable
  cases room.table with
  | false => exact ⟨h, .refl _, nofun⟩
  | true =>
    rw [if_pos rfl]
    unfold increaseCapacity
    split
    · rename_i hn
      exact ⟨h, .refl _, fun _ hc => absurd hn (nextCapacity_some hc)⟩
    · rename_i c hc
      have hp := nextCapacity_pos hc
      obtain ⟨h1, h2, h3⟩ := rehash_ok hp m.flat (List.replicate c none) (by simp) (by
        intro i b hb e hx
        rw [List.getElem?_replicate] at hb
        split at hb <;> simp at hb
        subst hb; simp [bucketVals] at hx)
      have h4 : (List.flatMap bucketVals (List.replicate c none)) = [] := by
        simp [List.flatMap_eq_nil_iff, bucketVals]
      rw [h4, List.append_nil] at h3
      exact ⟨⟨hp, h1, fun e he => h.nonnull e (h3.mem_iff.1 he)⟩, h3, fun _ _ => rfl⟩

/-- What a put does with its key and value: `new` is what the map takes. -/
theorem put_step (own : Callbacks) (o : HashOps) (room : Room) {m : HMap} (h : HashShape m) (k v : Nat) :
    ∃ b lg m' new, putOwned own o room m k v = .ok (b, lg, m') ∧ HashShape m' ∧ OwnBalanced own (new.map Prod.fst) ((new.map Prod.snd).filter (· ≠ 0)) (HMap.pairs m) lg (HMap.pairs m') ∧
      (b = true → new = [(k, v)] ∧ k ≠ 0 ∧ v ≠ 0) ∧ (room.table = true → m.capacity < 4194301 → b = false → new = []) := by
  unfold putOwned
  by_cases hk : k = 0 ∨ v = 0
  · rw [if_pos hk]; exact ⟨_, _, _, [], rfl, h, balanced_same own _, nofun, fun _ _ _ => rfl⟩
  rw [if_neg hk]
  have hk' : k ≠ 0 ∧ v ≠ 0 := ⟨fun h => hk (.inl h), fun h => hk (.inr h)⟩
  cases hen : room.entry with
  | false => rw [if_pos rfl]; exact ⟨_, _, _, [], rfl, h, balanced_same own _, nofun, fun _ _ _ => rfl⟩
  | true =>
  rw [if_neg (by simp)]
  obtain ⟨b, hb, hb'⟩ := bucket_at h (o.hash k)
  simp only [hb, Res.ok_bind]
  obtain ⟨rest, hr1, hr2⟩ := flat_set hb'
  have hsplit := replaced_split o k (o.hash k) b
  -- the balance of any new content of the bucket
  have bal : ∀ (new : List Entry) (f : List Entry), f.Perm (new ++ (putBucket o k (o.hash k) b).vals ++ rest) →
      OwnBalanced own (new.map (·.key)) ((new.map (·.value)).filter (· ≠ 0)) (HMap.pairs m) (replacedLedger own (replacedEntry o k (o.hash k) b)) (f.map fun e => (e.key, e.value)) := by
    intro new f hf
    have hf' := hf.map fun e : Entry => (e.key, e.value)
    rw [List.append_assoc, List.map_append] at hf'
    have hm : (HMap.pairs m).Perm ((bucketVals b ++ rest).map fun e => (e.key, e.value)) := hr1.map _
    cases hrep : replacedEntry o k (o.hash k) b with
    | none =>
      rw [hrep] at hsplit
      rw [show new.map (·.key) = (new.map fun e => (e.key, e.value)).map Prod.fst by simp, show new.map (·.value) = (new.map fun e => (e.key, e.value)).map Prod.snd by simp]
      refine balanced_add own (hf'.trans ?_)
      rw [hsplit]
      exact hm.symm.append_left _
    | some e =>
      rw [hrep] at hsplit
      have hmem : e ∈ m.flat := hr1.mem_iff.2 (List.mem_append_left _ (hsplit.mem_iff.2 List.mem_cons_self))
      have hn := h.nonnull e hmem
      refine balanced_one (b := (e.key, e.value)) (new := new.map fun e => (e.key, e.value)) (m := ((putBucket o k (o.hash k) b).vals ++ rest).map fun e => (e.key, e.value)) ?_ hf' ?_ ?_ ?_ ?_ (by simp [Function.comp_def]) (by rw [List.map_map]; rfl)
      · exact hm.trans ((hsplit.append_right rest).map _)
      · intro ho
        show own.key e.key ++ [] = _
        rw [(put_key own hn.1).1 ho]; rfl
      · intro ho
        show own.value e.value ++ [] = _
        rw [(put_value own e.value).1 ho, List.append_nil]
      · exact (put_key own hn.1).2
      · exact (put_value own e.value).2
  have hsub : ∀ e ∈ (putBucket o k (o.hash k) b).vals, e ∈ bucketVals b := by
    intro e he
    cases hrep : replacedEntry o k (o.hash k) b with
    | none => rw [hrep] at hsplit; rw [← hsplit]; exact he
    | some e' => rw [hrep] at hsplit; exact hsplit.mem_iff.2 (List.mem_cons_of_mem _ he)
  cases hel : room.element with
  | false =>
    rw [if_pos rfl]
    refine ⟨_, _, _, [], rfl, ?_, bal [] _ ((hr2 (some (putBucket o k (o.hash k) b))).trans (.refl _)), nofun, fun _ _ _ => rfl⟩
    refine shape_of h rfl (by simp) fun e he => ?_
    rcases List.mem_append.1 ((hr2 (some (putBucket o k (o.hash k) b))).mem_iff.1 he) with he | he
    · exact hr1.mem_iff.2 (List.mem_append_left _ (hsub e he))
    · exact hr1.mem_iff.2 (List.mem_append_right _ he)
  | true =>
    rw [if_neg (by simp)]
    generalize hM : ({ m with map := m.map.set (o.hash k % m.capacity) (some ((putBucket o k (o.hash k) b).insertFront ⟨o.hash k, k, v⟩)) } : HMap) = M
    have hcap : M.capacity = m.capacity := by rw [← hM]
    have hflat : M.flat.Perm ([⟨o.hash k, k, v⟩] ++ (putBucket o k (o.hash k) b).vals ++ rest) := by
      rw [← hM]; exact hr2 _
    have hS : HashShape M := by
      refine ⟨by rw [hcap]; exact h.pos, by rw [← hM]; simpa using h.len, fun e he => ?_⟩
      rcases List.mem_append.1 (hflat.mem_iff.1 he) with he | he
      · rcases List.mem_cons.1 he with rfl | he
        · exact hk'
        · exact h.nonnull e (hr1.mem_iff.2 (List.mem_append_left _ (hsub e he)))
      · exact h.nonnull e (hr1.mem_iff.2 (List.mem_append_right _ he))
    obtain ⟨g1, g2, g3⟩ := grow_shape hS room
    have hbal := bal [⟨o.hash k, k, v⟩]
    have fin : ∀ M' : HMap, M'.map = M.map → M'.capacity = M.capacity → HashShape M' := fun M' e1 e2 => ⟨e2 ▸ hS.pos, by rw [e1, e2, hS.len], fun e he => hS.nonnull e (by unfold HMap.flat at *; rwa [e1] at he)⟩
    split
    · split
      · rename_i hg
        refine ⟨_, _, _, [(k, v)], rfl, g1, hbal _ (g2.trans hflat), nofun, fun ht hc _ => ?_⟩
        have := g3 ht (by omega)
        rw [hg] at this; cases this
      · refine ⟨_, _, _, [(k, v)], rfl, ⟨g1.pos, g1.len, g1.nonnull⟩, hbal _ (g2.trans hflat), fun _ => ⟨rfl, hk'⟩, fun _ _ hf => by cases hf⟩
    · exact ⟨_, _, _, [(k, v)], rfl, fin _ (by rw [← hM]) (by rw [← hM]), hbal _ (by rw [← hM] at hflat; exact hflat), fun _ => ⟨rfl, hk'⟩, fun _ _ hf => by cases hf⟩

/-- The model with all the memory it asks for is the model of C16. -/
theorem put_agrees (own : Callbacks) (o : HashOps) (m : HMap) (k v : Nat) :
    putInHashmap o m k v = (do let r ← putOwned own o ⟨true, true, true⟩ m k v; .ok (r.1, r.2.2)) := by
  unfold putInHashmap putOwned
  split
  · rfl
  · cases hb : bucketAt m (o.hash k) with
    | ok r =>
      simp only [hb, Bool.true_eq_false, if_false, Res.ok_bind]
      split
      · simp only [growTable, if_true]
        cases hi : increaseCapacity { m with map := m.map.set r.1 (some ((putBucket o k (o.hash k) r.2).insertFront ⟨o.hash k, k, v⟩)) } with
        | mk ok m' => cases ok <;> rfl
      · rfl
    | ub => simp only [hb, Bool.true_eq_false, if_false]; rfl
    | fatal => simp only [hb, Bool.true_eq_false, if_false]; rfl

theorem hash_own_step (own : Callbacks) (o : HashOps) {m : HMap} (h : HashShape m) (op : HashOp) (hg : ∀ room k v, op = .put room k v → room.table = true ∧ m.capacity < 4194301) :
    ∃ b lg m', HashOwn.exec own o m op = .ok (b, lg, m') ∧ HashShape m' ∧ OwnBalanced own (takenKeys [op] [b]) (takenValues [op] [b]) (HMap.pairs m) lg (HMap.pairs m') := by
  cases op with
  | put room k v =>
    obtain ⟨b, lg, m', new, e, hs, hb, h1, h2⟩ := put_step own o room h k v
    obtain ⟨g1, g2⟩ := hg room k v rfl
    refine ⟨b, lg, m', e, hs, ?_⟩
    cases b with
    | true =>
      obtain ⟨rfl, -, hv⟩ := h1 rfl
      simpa [takenKeys, takenValues, hv] using hb
    | false =>
      have := h2 g1 g2 rfl
      subst this
      exact hb
  | get k =>
    unfold HashOwn.exec getFromHashmap
    simp only []
    by_cases hk : k = 0
    · rw [if_pos hk]; exact ⟨_, _, _, rfl, h, balanced_same own _⟩
    rw [if_neg hk]
    obtain ⟨b, hb, hb'⟩ := bucket_at h (o.hash k)
    simp only [hb, Res.ok_bind]
    cases b with
    | none => exact ⟨_, _, _, rfl, h, balanced_same own _⟩
    | some b =>
      refine ⟨_, _, _, rfl, ?_, ?_⟩
      · have hf := (SameVals.setPos (p := (scanBucket o k (o.hash k) b.vals 0).2) hb').flat (m := m) (m' := { m with map := m.map.set (o.hash k % m.capacity) (some ⟨b.vals, (scanBucket o k (o.hash k) b.vals 0).2⟩) })
        exact shape_of h rfl (by simp) fun e he => by rw [hf] at he; exact he
      · have hf := (SameVals.setPos (p := (scanBucket o k (o.hash k) b.vals 0).2) hb').flat (m := m) (m' := { m with map := m.map.set (o.hash k % m.capacity) (some ⟨b.vals, (scanBucket o k (o.hash k) b.vals 0).2⟩) })
        have : HMap.pairs { m with map := m.map.set (o.hash k % m.capacity) (some ⟨b.vals, (scanBucket o k (o.hash k) b.vals 0).2⟩) } = HMap.pairs m := by unfold HMap.pairs; rw [hf]
        show OwnBalanced own [] [] (HMap.pairs m) {} (HMap.pairs { m with map := m.map.set (o.hash k % m.capacity) (some ⟨b.vals, (scanBucket o k (o.hash k) b.vals 0).2⟩) })
        rw [this]
        exact balanced_same own _
  | remove k =>
    unfold HashOwn.exec removeEntryOwned removedEntry removeFromHashmap
    simp only []
    by_cases hk : k = 0
    · rw [if_pos hk, if_pos hk]; exact ⟨_, _, _, rfl, h, balanced_same own _⟩
    rw [if_neg hk, if_neg hk]
    obtain ⟨b, hb, hb'⟩ := bucket_at h (o.hash k)
    simp only [hb, Res.ok_bind]
    cases b with
    | none => exact ⟨_, _, _, rfl, h, balanced_same own _⟩
    | some b =>
      obtain ⟨rest, hr1, hr2⟩ := flat_set hb'
      simp only [replacedEntry]
      rcases scan_spec o k (o.hash k) b.vals 0 with ⟨h1, h2⟩ | ⟨xs, e, ys, h1, h2, h3, h4⟩
      · rw [h1]
        simp only [Option.map_none]
        refine ⟨_, _, _, rfl, ?_, ?_⟩
        · refine shape_of h rfl (by simp) fun e he => hr1.mem_iff.2 ((hr2 (some ⟨b.vals, 0 + b.vals.length⟩)).mem_iff.1 he)
        · show OwnBalanced own [] [] (HMap.pairs m) {} (HMap.pairs { m with map := m.map.set (o.hash k % m.capacity) (some ⟨b.vals, 0 + b.vals.length⟩) })
          have := balanced_add own (l := HMap.pairs m) (l' := HMap.pairs { m with map := m.map.set (o.hash k % m.capacity) (some ⟨b.vals, 0 + b.vals.length⟩) }) (new := [])
            (((hr2 (some ⟨b.vals, 0 + b.vals.length⟩)).trans hr1.symm).map _)
          exact this
      · rw [h4]
        simp only [Option.map_some]
        have hv : (Bucket.remove ⟨b.vals, 0 + xs.length + 1⟩ (0 + xs.length)).vals = xs ++ ys := by
          simp [Bucket.remove, h1, List.eraseIdx_append_of_length_le]
        have hf := hr2 (some (Bucket.remove ⟨b.vals, 0 + xs.length + 1⟩ (0 + xs.length)))
        have hmf : m.flat.Perm (e :: ((xs ++ ys) ++ rest)) := by
          refine hr1.trans ?_
          simp only [bucketVals, h1, List.append_assoc, List.cons_append]
          exact List.perm_middle
        have hf' : (List.flatMap bucketVals (m.map.set (o.hash k % m.capacity) (some (Bucket.remove ⟨b.vals, 0 + xs.length + 1⟩ (0 + xs.length))))).Perm ((xs ++ ys) ++ rest) := by
          rw [← hv]; exact hf
        have hn := h.nonnull e (hmf.mem_iff.2 List.mem_cons_self)
        refine ⟨_, _, _, rfl, ?_, ?_⟩
        · refine shape_of h rfl (by simp) fun x hx => hmf.mem_iff.2 (List.mem_cons_of_mem _ (hf'.mem_iff.1 hx))
        · refine balanced_one (b := (e.key, e.value)) (new := []) (hmf.map _) (hf'.map _) ?_ ?_ ?_ ?_ rfl rfl
          · intro ho
            show own.key e.key ++ [] = _
            rw [(put_key own hn.1).1 ho]; rfl
          · intro ho
            show [] ++ [e.value] = _
            simp [hn.2]
          · exact (put_key own hn.1).2
          · exact fun _ => rfl
  | resetIterator => exact ⟨_, _, _, rfl, ⟨h.pos, h.len, h.nonnull⟩, balanced_same own _⟩
  | next =>
    obtain ⟨r, e, h1, h2, -⟩ := nextLoop_safe _ m h.len rfl
    unfold HashOwn.exec getNextEntry
    simp only []
    rw [e, Res.ok_bind]
    refine ⟨_, _, _, rfl, ?_, ?_⟩
    · exact shape_of h h2 (by simpa using congrArg List.length h1) fun x hx => by rw [← h1.flat]; exact hx
    · show OwnBalanced own [] [] (HMap.pairs m) {} (HMap.pairs r.2)
      have : HMap.pairs r.2 = HMap.pairs m := by unfold HMap.pairs; rw [h1.flat]
      rw [this]; exact balanced_same own _

theorem hash_shape_run (own : Callbacks) (o : HashOps) (ops : List HashOp) : ∀ {m}, HashShape m → ∃ bs lg m', HashOwn.run own o m ops = .ok (bs, lg, m') ∧ HashShape m' := by
  induction ops with
  | nil => intro m h; exact ⟨_, _, _, rfl, h⟩
  | cons op ops ih =>
    intro m h
    have : ∃ b lg m', HashOwn.exec own o m op = .ok (b, lg, m') ∧ HashShape m' := by
      cases op with
      | put room k v =>
        obtain ⟨b, lg, m', -, e, hs, -⟩ := put_step own o room h k v
        exact ⟨b, lg, m', e, hs⟩
      | get k =>
        obtain ⟨b, lg, m', e, hs, -⟩ := hash_own_step own o h (.get k) nofun
        exact ⟨b, lg, m', e, hs⟩
      | remove k =>
        obtain ⟨b, lg, m', e, hs, -⟩ := hash_own_step own o h (.remove k) nofun
        exact ⟨b, lg, m', e, hs⟩
      | resetIterator =>
        obtain ⟨b, lg, m', e, hs, -⟩ := hash_own_step own o h (.resetIterator) nofun
        exact ⟨b, lg, m', e, hs⟩
      | next =>
        obtain ⟨b, lg, m', e, hs, -⟩ := hash_own_step own o h (.next) nofun
        exact ⟨b, lg, m', e, hs⟩
    obtain ⟨b, lg, m1, e1, h1⟩ := this
    obtain ⟨bs, lg2, m2, e2, h2⟩ := ih h1
    exact ⟨b :: bs, lg.append lg2, m2, by unfold HashOwn.run; rw [e1, Res.ok_bind, e2, Res.ok_bind], h2⟩

theorem taken_cons (op : HashOp) (b : Bool) (ops : List HashOp) (bs : List Bool) :
    takenKeys (op :: ops) (b :: bs) = takenKeys [op] [b] ++ takenKeys ops bs ∧ takenValues (op :: ops) (b :: bs) = takenValues [op] [b] ++ takenValues ops bs := by
  cases op <;> cases b <;> exact ⟨rfl, rfl⟩

theorem hash_own_run (own : Callbacks) (o : HashOps) (ops : List HashOp) : ∀ {m}, HashShape m → Grows own o m ops →
    ∃ bs lg m', HashOwn.run own o m ops = .ok (bs, lg, m') ∧ HashShape m' ∧ OwnBalanced own (takenKeys ops bs) (takenValues ops bs) (HMap.pairs m) lg (HMap.pairs m') := by
  induction ops with
  | nil => intro m h _; exact ⟨_, _, _, rfl, h, balanced_same own _⟩
  | cons op ops ih =>
    intro m h hg
    obtain ⟨b, lg, m1, e1, h1, b1⟩ := hash_own_step own o h op hg.1
    obtain ⟨bs, lg2, m2, e2, h2, b2⟩ := ih h1 (hg.2 b lg m1 e1)
    refine ⟨b :: bs, lg.append lg2, m2, ?_, h2, ?_⟩
    · unfold HashOwn.run; rw [e1, Res.ok_bind, e2, Res.ok_bind]
    · rw [(taken_cons op b ops bs).1, (taken_cons op b ops bs).2]; exact balanced_trans b1 b2

theorem new_shape {capacity : Nat} (hc : 0 < capacity) : HashShape (newHashmap capacity) ∧ (newHashmap capacity).flat = [] := by
  have h4 : (newHashmap capacity).flat = [] := by simp [HMap.flat, newHashmap, List.flatMap_eq_nil_iff, bucketVals]
  exact ⟨⟨hc, by simp [newHashmap], by rw [h4]; simp⟩, h4⟩

theorem destroy_entries (own : Callbacks) (vals : List Entry) : ∀ (n p : Nat), vals.length - p < n →
    destroyEntries own n ⟨vals, p⟩ = .ok { freedKeys := (vals.drop p).flatMap fun e => own.key e.key, freedValues := (vals.drop p).flatMap fun e => own.value e.value } := by
  intro n
  induction n with
  | zero => intro p h; omega
  | succ n ih =>
    intro p h
    unfold destroyEntries
    simp only []
    by_cases hp : p < vals.length
    · rw [List.getElem?_eq_getElem hp]
      simp only []
      rw [ih (p + 1) (by omega), Res.ok_bind, List.drop_eq_getElem_cons hp]
      rfl
    · rw [List.getElem?_eq_none (by omega), List.drop_eq_nil_of_le (by omega)]
      rfl

theorem destroy_buckets (own : Callbacks) (m : HMap) : ∀ (n i : Nat), i + n = m.map.length →
    destroyBuckets own m n i = .ok { freedKeys := ((m.map.drop i).flatMap bucketVals).flatMap fun e => own.key e.key, freedValues := ((m.map.drop i).flatMap bucketVals).flatMap fun e => own.value e.value } := by
  intro n
  induction n with
  | zero =>
    intro i h
    rw [List.drop_eq_nil_of_le (by omega)]; rfl
  | succ n ih =>
    intro i h
    have hi : i < m.map.length := by omega
    unfold destroyBuckets
    rw [List.getElem?_eq_getElem hi, List.drop_eq_getElem_cons hi]
    cases m.map[i] with
    | none =>
      simp only []
      rw [ih (i + 1) (by omega), List.flatMap_cons]
      rfl
    | some b =>
      simp only []
      rw [destroy_entries own b.vals _ 0 (by omega), Res.ok_bind, ih (i + 1) (by omega), Res.ok_bind, List.flatMap_cons, List.flatMap_append, List.flatMap_append]
      rfl

/-- **C157** For all callbacks, every hash, every comparison, every history of calls in which the table can grow when it has to, and every shortage of the other memory: each key (and value) of a put
that reported success is relinquished, handed back or in the map, each exactly as often as it was put, and those of the other puts are not; and `DestroyHashmap` relinquishes exactly those that are
left in the map. -/
theorem C157_owned_partial (own : Callbacks) (o : HashOps) {capacity : Nat} (hc : 0 < capacity) (ops : List HashOp) (hg : Grows own o (newHashmap capacity) ops) :
    ∃ bs lg m lg', HashOwn.run own o (newHashmap capacity) ops = .ok (bs, lg, m) ∧ destroyHashmap own m = .ok lg' ∧
      (own.keys = true → (takenKeys ops bs).Perm (lg.freedKeys ++ lg.givenKeys ++ heldKeys m) ∧ lg'.freedKeys = heldKeys m) ∧
      (own.values = true → (takenValues ops bs).Perm (lg.freedValues ++ lg.givenValues ++ heldValues m) ∧ lg'.freedValues = heldValues m) ∧
      (own.keys = false → lg.freedKeys = [] ∧ lg'.freedKeys = []) ∧ (own.values = false → lg.freedValues = [] ∧ lg'.freedValues = []) := by
  obtain ⟨hn, hf⟩ := new_shape hc
  obtain ⟨bs, lg, m, e, hs, b⟩ := hash_own_run own o ops hn hg
  have hd := destroy_buckets own m m.capacity 0 (by rw [hs.len]; omega)
  rw [List.drop_zero] at hd
  have hp0 : HMap.pairs (newHashmap capacity) = [] := by unfold HMap.pairs; rw [hf]; rfl
  rw [hp0] at b
  have hv : ((HMap.pairs m).map Prod.snd).filter (fun x => decide (x ≠ 0)) = heldValues m := by
    rw [List.filter_eq_self.2]
    · simp [HMap.pairs, heldValues, HMap.flat]
    · intro x hx
      simp only [HMap.pairs, List.map_map, List.mem_map, Function.comp] at hx
      obtain ⟨e, he, rfl⟩ := hx
      simpa using (hs.nonnull e he).2
  have hkk : (HMap.pairs m).map Prod.fst = heldKeys m := by simp [HMap.pairs, heldKeys, HMap.flat]
  refine ⟨bs, lg, m, _, e, hd, fun ho => ⟨?_, ?_⟩, fun ho => ⟨?_, ?_⟩, fun ho => ⟨b.noKeys ho, ?_⟩, fun ho => ⟨b.noValues ho, ?_⟩⟩
  · have := b.keys ho
    rw [hkk] at this
    simpa using this
  · show (m.flat.flatMap fun e => own.key e.key) = m.flat.map (·.key)
    have : ∀ l : List Entry, (∀ e ∈ l, e.key ≠ 0 ∧ e.value ≠ 0) → (l.flatMap fun e => own.key e.key) = l.map (·.key) := by
      intro l
      induction l with
      | nil => intro _; rfl
      | cons x l ih =>
        intro hx
        rw [List.flatMap_cons, (put_key own (hx x List.mem_cons_self).1).1 ho, ih fun e he => hx e (List.mem_cons_of_mem _ he)]; rfl
    exact this _ hs.nonnull
  · have := b.values ho
    rw [hv] at this
    simpa using this
  · show (m.flat.flatMap fun e => own.value e.value) = m.flat.map (·.value)
    have : ∀ l : List Entry, (∀ e ∈ l, e.key ≠ 0 ∧ e.value ≠ 0) → (l.flatMap fun e => own.value e.value) = l.map (·.value) := by
      intro l
      induction l with
      | nil => intro _; rfl
      | cons x l ih =>
        intro hx
        have hvx := (hx x List.mem_cons_self).2
        rw [List.flatMap_cons, (put_value own x.value).1 ho, ih fun e he => hx e (List.mem_cons_of_mem _ he)]
        simp [hvx]
    exact this _ hs.nonnull
  · show (m.flat.flatMap fun e => own.key e.key) = []
    simp [List.flatMap_eq_nil_iff, Callbacks.key, ho]
  · show (m.flat.flatMap fun e => own.value e.value) = []
    simp [List.flatMap_eq_nil_iff, Callbacks.value, ho]

/-- A history with a key that is put twice, a put without memory and a removal. -/
def exampleHashOps : List HashOp := [.put ⟨true, true, true⟩ 5 50, .put ⟨true, true, true⟩ 6 60, .put ⟨true, true, true⟩ 5 51, .put ⟨false, true, true⟩ 7 70, .remove 6, .next]

def exampleHashFns : HashOps := ⟨id, some (· == ·)⟩

example : (HashOwn.run ⟨true, true⟩ exampleHashFns (newHashmap 17) exampleHashOps).Ok fun r => r.1 = [true, true, true, false, true, true] ∧ r.2.1.freedKeys = [5, 6] ∧ r.2.1.freedValues = [50] ∧
    r.2.1.givenValues = [60] ∧ heldKeys r.2.2 = [5] ∧ heldValues r.2.2 = [51] := ⟨_, rfl, by decide +kernel⟩

example : Grows ⟨true, true⟩ exampleHashFns (newHashmap 17) exampleHashOps := by
  refine ⟨fun _ _ _ e => by cases e; decide, fun b lg m e => ?_⟩
  cases e
  refine ⟨fun _ _ _ e => by cases e; decide, fun b lg m e => ?_⟩
  cases e
  refine ⟨fun _ _ _ e => by cases e; decide, fun b lg m e => ?_⟩
  cases e
  refine ⟨fun _ _ _ e => by cases e; decide, fun b lg m e => ?_⟩
  cases e
  refine ⟨nofun, fun b lg m e => ?_⟩
  cases e
  exact ⟨nofun, fun _ _ _ _ => trivial⟩

/-- **C158** After every history: a put that reports failure although there is memory for a list element, and the table can grow, changes nothing and relinquishes nothing; and a put of a key that is not
in the map leaves the bindings as they are if there is no memory for the element. -/
theorem C158_partial (own : Callbacks) (o : HashOps) {capacity : Nat} (hc : 0 < capacity) (ops : List HashOp) {bs : List Bool} {before : Ledger} {m : HMap}
    (hm : HashOwn.run own o (newHashmap capacity) ops = .ok (bs, before, m)) (room : Room) (k v : Nat) (hroom : room.table = true ∧ m.capacity < 4194301)
    (hel : room.element = true ∨ ∀ e ∈ m.flat, o.matches k (o.hash k) e = false) {lg : Ledger} {m' : HMap} (hr : putOwned own o room m k v = .ok (false, lg, m')) :
    m'.flat.Perm m.flat ∧ lg.freedKeys = [] ∧ lg.freedValues = [] ∧ m'.entries = m.entries ∧ (room.element = true → m' = m) := by
  obtain ⟨bs', lg', m2, e, h⟩ := hash_shape_run own o ops (new_shape hc).1
  rw [hm] at e
  cases e
  unfold putOwned at hr
  by_cases hk : k = 0 ∨ v = 0
  · rw [if_pos hk] at hr; cases hr; exact ⟨.refl _, rfl, rfl, rfl, fun _ => rfl⟩
  rw [if_neg hk] at hr
  cases hen : room.entry with
  | false => rw [hen, if_pos rfl] at hr; cases hr; exact ⟨.refl _, rfl, rfl, rfl, fun _ => rfl⟩
  | true =>
  rw [hen, if_neg (by simp)] at hr
  obtain ⟨b, hb, hb'⟩ := bucket_at h (o.hash k)
  simp only [hb, Res.ok_bind] at hr
  obtain ⟨rest, hr1, hr2⟩ := flat_set hb'
  cases hE : room.element with
  | false =>
    rw [hE, if_pos rfl] at hr
    have hno := hel.resolve_left (by rw [hE]; simp)
    have hrep : replacedEntry o k (o.hash k) b = none := by
      cases b with
      | none => rfl
      | some b =>
        show Option.map Prod.snd (scanBucket o k (o.hash k) b.vals 0).1 = none
        rcases scan_spec o k (o.hash k) b.vals 0 with ⟨h1, h2⟩ | ⟨xs, e, ys, h1, h2, h3, h4⟩
        · rw [h1]; rfl
        · have := hno e (hr1.mem_iff.2 (List.mem_append_left _ (by show e ∈ b.vals; rw [h1]; simp)))
          rw [h2] at this; cases this
    have hs := replaced_split o k (o.hash k) b
    rw [hrep] at hs hr
    cases hr
    refine ⟨?_, rfl, rfl, rfl, nofun⟩
    have := hr2 (some (putBucket o k (o.hash k) b))
    refine this.trans ?_
    show List.Perm ((putBucket o k (o.hash k) b).vals ++ rest) _
    rw [hs]; exact hr1.symm
  | true =>
    rw [hE, if_neg (by simp)] at hr
    split at hr
    · split at hr
      · rename_i hg
        unfold growTable at hg
        rw [if_pos hroom.1] at hg
        unfold increaseCapacity at hg
        split at hg
        · rename_i hn
          exact absurd hn (nextCapacity_some hroom.2)
        · cases hg
      · cases hr
    · cases hr

/-- **C158** (violated) A put for which the larger table cannot be allocated reports failure, but the binding is in the map: a caller that then releases its key and value has left dangling pointers
there, and `DestroyHashmap` relinquishes them too. Here with the first put into a map of capacity 2. -/
theorem C158_growth_violated (own : Callbacks) (ho : own.keys = true) (o : HashOps) {k v : Nat} (hk : k ≠ 0) (hv : v ≠ 0) :
    ∃ m lg', putOwned own o ⟨true, true, false⟩ (newHashmap 2) k v = .ok (false, {}, m) ∧ heldKeys m = [k] ∧ destroyHashmap own m = .ok lg' ∧ lg'.freedKeys = [k] := by
  have hne : ¬ (k = 0 ∨ v = 0) := by rintro (h | h) <;> contradiction
  have h2 : o.hash k % 2 = 0 ∨ o.hash k % 2 = 1 := by omega
  have hkey : own.key k = [k] := (put_key own hk).1 ho
  have hput : ∀ i, o.hash k % 2 = i → i < 2 → putOwned own o ⟨true, true, false⟩ (newHashmap 2) k v = .ok (false, {}, { newHashmap 2 with map := [none, none].set i (some ⟨[⟨o.hash k, k, v⟩], 0⟩) }) := by
    intro i hi hlt
    have hb : bucketAt (newHashmap 2) (o.hash k) = .ok (i, none) := by
      have := bucket_is (m := newHashmap 2) (k := o.hash k) (b := none) (by decide) (by
        show ([none, none] : List (Option Bucket))[o.hash k % 2]? = _
        rw [hi]
        rcases (by omega : i = 0 ∨ i = 1) with rfl | rfl <;> rfl)
      rw [this]
      show Res.ok (o.hash k % 2, none) = _
      rw [hi]
    unfold putOwned
    rw [if_neg hne, if_neg (by simp)]
    simp only [hb, Res.ok_bind]
    simp [replacedEntry, replacedLedger, putBucket, Bucket.insertFront, growTable, newHashmap, List.replicate]
  rcases h2 with h | h
  · refine ⟨_, _, hput 0 h (by omega), rfl, rfl, ?_⟩
    show own.key k ++ [] ++ [] = _
    simp [hkey]
  · refine ⟨_, _, hput 1 h (by omega), rfl, rfl, ?_⟩
    show own.key k ++ [] ++ [] = _
    simp [hkey]

/-- **C158** (violated) A put that rebinds a key and has no memory for the new element reports failure, but the old binding is gone: its key and value are relinquished, a lookup finds nothing, and the
map still counts an entry. -/
theorem C158_element_violated (own : Callbacks) (ho : own.keys = true) {k k' v w : Nat} (hk : k ≠ 0) (hk' : k' ≠ 0) (hv : v ≠ 0) (hw : w ≠ 0) (o : HashOps) (hsame : o.same k' k = true) :
    ∃ m m' lg, putOwned own o ⟨true, true, true⟩ (newHashmap 17) k v = .ok (true, {}, m) ∧ Finds o m k' v ∧ putOwned own o ⟨true, false, true⟩ m k' w = .ok (false, lg, m') ∧ lg.freedKeys = [k] ∧
      heldKeys m' = [] ∧ Finds o m' k' 0 ∧ m'.entries = 1 := by
  have hhash : o.hash k = o.hash k' := same_hash hsame
  have hlt : o.hash k' % 17 < 17 := Nat.mod_lt _ (by decide)
  have hmatch : o.matches k' (o.hash k') ⟨o.hash k', k, v⟩ = true := by rw [matches_same (by exact hhash.symm)]; exact hsame
  have hkey : own.key k = [k] := (put_key own hk).1 ho
  generalize hi : o.hash k' % 17 = i at hlt
  have hrep : (List.replicate 17 (none : Option Bucket))[i]? = some none := by rw [List.getElem?_replicate, if_pos hlt]
  have hset : ∀ b : Bucket, ((List.replicate 17 (none : Option Bucket)).set i (some b))[i]? = some (some b) := fun b => by rw [List.getElem?_set_self (by simpa using hlt)]
  have e1 : putOwned own o ⟨true, true, true⟩ (newHashmap 17) k v = .ok (true, {}, ⟨17, 1, 0, false, (List.replicate 17 none).set i (some ⟨[⟨o.hash k', k, v⟩], 0⟩)⟩) := by
    have hb : bucketAt (newHashmap 17) (o.hash k') = .ok (i, none) := by
      have := bucket_is (m := newHashmap 17) (k := o.hash k') (b := none) (by decide) (by
        show (List.replicate 17 (none : Option Bucket))[o.hash k' % 17]? = _
        rw [hi]; exact hrep)
      rw [this]
      show Res.ok (o.hash k' % 17, none) = _
      rw [hi]
    unfold putOwned
    rw [if_neg (by rintro (h | h) <;> contradiction), if_neg (by simp), hhash]
    simp only [hb, Res.ok_bind]
    simp [replacedEntry, replacedLedger, putBucket, Bucket.insertFront, incSize, newHashmap]
  have hbk : ∀ b : Bucket, bucketAt ⟨17, 1, 0, false, (List.replicate 17 none).set i (some b)⟩ (o.hash k') = .ok (i, some b) := by
    intro b
    have := bucket_is (m := ⟨17, 1, 0, false, (List.replicate 17 none).set i (some b)⟩) (k := o.hash k') (b := some b) (by simp) (by
      show ((List.replicate 17 (none : Option Bucket)).set i (some b))[o.hash k' % 17]? = _
      rw [hi]; exact hset b)
    rw [this]
    show Res.ok (o.hash k' % 17, some b) = _
    rw [hi]
  have e2 : ∃ m', getFromHashmap o ⟨17, 1, 0, false, (List.replicate 17 none).set i (some ⟨[⟨o.hash k', k, v⟩], 0⟩)⟩ k' = .ok (v, m') := by
    unfold getFromHashmap
    rw [if_neg hk']
    simp only [hbk, Res.ok_bind, scanBucket, hmatch, if_true]
    exact ⟨_, rfl⟩
  have e3 : putOwned own o ⟨true, false, true⟩ ⟨17, 1, 0, false, (List.replicate 17 none).set i (some ⟨[⟨o.hash k', k, v⟩], 0⟩)⟩ k' w =
      .ok (false, { freedKeys := own.key k, freedValues := own.value v }, ⟨17, 1, 0, false, (List.replicate 17 none).set i (some ⟨[], 0⟩)⟩) := by
    unfold putOwned
    rw [if_neg (by rintro (h | h) <;> contradiction), if_neg (by simp)]
    simp only [hbk, Res.ok_bind, putBucket, replacedEntry, scanBucket, hmatch, if_true, List.set_set]
    rfl
  have e4 : ∃ m', getFromHashmap o ⟨17, 1, 0, false, (List.replicate 17 none).set i (some ⟨[], 0⟩)⟩ k' = .ok (0, m') := by
    unfold getFromHashmap
    rw [if_neg hk']
    simp only [hbk, Res.ok_bind, scanBucket]
    exact ⟨_, rfl⟩
  refine ⟨_, _, _, e1, e2, e3, hkey, ?_, e4, rfl⟩
  show ((List.flatMap bucketVals ((List.replicate 17 none).set i (some ⟨[], 0⟩))).map fun e => e.key) = []
  rw [List.flatMap_eq_nil_iff.2, List.map_nil]
  intro x hx
  rcases List.mem_or_eq_of_mem_set hx with hx | rfl
  · rw [(List.mem_replicate.1 hx).2]; rfl
  · rfl

/-- The keys 1 to `n` with one value. -/
def manyPuts (n : Nat) : List HashOp := (List.range n).map fun i => .put ⟨true, true, true⟩ (i + 1) 1

/-- The hash is the same for all keys. -/
def oneHash : HashOps := ⟨fun _ => 0, some (· == ·)⟩

/-- One bucket with the keys 1 to `j`. -/
structure OneBucket (j : Nat) (m : HMap) : Prop where
  cap : m.capacity = 4194301
  len : m.map.length = 4194301
  bucket : ∃ b, m.map[0]? = some b ∧ (bucketVals b).length = j ∧ ∀ e ∈ bucketVals b, e.key ≤ j

theorem one_put (own : Callbacks) {j : Nat} {m : HMap} (h : OneBucket j m) :
    ∃ m', putOwned own oneHash ⟨true, true, true⟩ m (j + 1) 1 = .ok (decide (j + 1 < 4194300), {}, m') ∧ (j + 1 ≤ 4194300 → OneBucket (j + 1) m' ∧ ∃ rest, ∃ p, m'.map[0]? = some (some ⟨⟨0, j + 1, 1⟩ :: rest, p⟩)) := by
  obtain ⟨hc, hl, b, hb, hj, hkeys⟩ := h
  have hbk : bucketAt m (oneHash.hash (j + 1)) = .ok (0, b) := by
    have hz : oneHash.hash (j + 1) % m.capacity = 0 := Nat.zero_mod _
    rw [bucket_is (by rw [hc]; decide) (by rw [hz]; exact hb), hz]
  have hno : ∀ e ∈ bucketVals b, oneHash.matches (j + 1) 0 e = false := by
    intro e he
    have := hkeys e he
    unfold HashOps.matches oneHash
    simp only []
    split
    · simp; omega
    · rfl
  have hrep : replacedEntry oneHash (j + 1) 0 b = none ∧ (putBucket oneHash (j + 1) 0 b).vals = bucketVals b := by
    have hr : replacedEntry oneHash (j + 1) 0 b = none := by
      cases b with
      | none => rfl
      | some b =>
        show Option.map Prod.snd (scanBucket oneHash (j + 1) 0 b.vals 0).1 = none
        rcases scan_spec oneHash (j + 1) 0 b.vals 0 with ⟨h1, h2⟩ | ⟨xs, e, ys, h1, h2, h3, h4⟩
        · rw [h1]; rfl
        · have := hno e (by show e ∈ b.vals; rw [h1]; simp)
          rw [h2] at this; cases this
    have hs := replaced_split oneHash (j + 1) 0 b
    rw [hr] at hs
    exact ⟨hr, hs⟩
  obtain ⟨M, hM⟩ : ∃ M : HMap, ({ m with map := m.map.set 0 (some ((putBucket oneHash (j + 1) 0 b).insertFront ⟨0, j + 1, 1⟩)) } : HMap) = M := ⟨_, rfl⟩
  have hcapM : M.capacity = 4194301 := by rw [← hM]; exact hc
  have hget : M.map[0]? = some (some ((putBucket oneHash (j + 1) 0 b).insertFront ⟨0, j + 1, 1⟩)) := by
    rw [← hM]; exact List.getElem?_set_self (by rw [hl]; decide)
  have hlenM : M.map.length = 4194301 := by rw [← hM]; simpa using hl
  have hvals : ((putBucket oneHash (j + 1) 0 b).insertFront ⟨0, j + 1, 1⟩).vals = ⟨0, j + 1, 1⟩ :: bucketVals b := by
    show _ :: (putBucket oneHash (j + 1) 0 b).vals = _
    rw [hrep.2]
  have hgrow : growTable ⟨true, true, true⟩ M = (false, M) := by
    unfold growTable increaseCapacity
    rw [if_pos rfl, hcapM, show nextCapacity 4194301 = none from by decide +kernel]
  have done : ∀ M' : HMap, M'.map = M.map → M'.capacity = M.capacity → OneBucket (j + 1) M' ∧ ∃ rest, ∃ p, M'.map[0]? = some (some ⟨⟨0, j + 1, 1⟩ :: rest, p⟩) := by
    intro M' e1 e2
    refine ⟨⟨by rw [e2, hcapM], by rw [e1, hlenM], _, by rw [e1]; exact hget, ?_, ?_⟩, bucketVals b, ((putBucket oneHash (j + 1) 0 b).insertFront ⟨0, j + 1, 1⟩).pos, ?_⟩
    · show ((putBucket oneHash (j + 1) 0 b).insertFront ⟨0, j + 1, 1⟩).vals.length = _
      rw [hvals, List.length_cons, hj]
    · intro e he
      have he : e ∈ ((putBucket oneHash (j + 1) 0 b).insertFront ⟨0, j + 1, 1⟩).vals := he
      rw [hvals] at he
      rcases List.mem_cons.1 he with rfl | he
      · exact Nat.le_refl _
      · exact Nat.le_succ_of_le (hkeys e he)
    · rw [e1, hget, ← hvals]
  unfold putOwned
  rw [if_neg (by simp), if_neg (by simp)]
  simp only [hbk, Res.ok_bind]
  rw [if_neg (by simp), show oneHash.hash (j + 1) = 0 from rfl, hrep.1]
  rw [hM]
  rw [show ({ m with entries := incSize m.entries, map := m.map.set 0 (some ((putBucket oneHash (j + 1) 0 b).insertFront ⟨0, j + 1, 1⟩)) } : HMap) = { M with entries := incSize m.entries } by rw [← hM], hgrow, hvals, List.length_cons, hj, hc]
  by_cases hlt : j + 1 < 4194300
  · rw [if_neg (by omega), show decide (j + 1 < 4194300) = true from decide_eq_true hlt]
    exact ⟨_, rfl, fun _ => done _ rfl rfl⟩
  · rw [if_pos (by omega), if_pos rfl, show decide (j + 1 < 4194300) = false from decide_eq_false hlt]
    exact ⟨_, rfl, fun _ => done _ rfl rfl⟩

theorem run_append (own : Callbacks) (o : HashOps) (xs ys : List HashOp) : ∀ {m bs lg m1 bs' lg' m2}, HashOwn.run own o m xs = .ok (bs, lg, m1) → HashOwn.run own o m1 ys = .ok (bs', lg', m2) →
    HashOwn.run own o m (xs ++ ys) = .ok (bs ++ bs', lg.append lg', m2) := by
  induction xs with
  | nil =>
    intro m bs lg m1 bs' lg' m2 h1 h2
    cases h1
    exact h2
  | cons x xs ih =>
    intro m bs lg m1 bs' lg' m2 h1 h2
    show HashOwn.run own o m (x :: (xs ++ ys)) = _
    unfold HashOwn.run at h1 ⊢
    cases hx : HashOwn.exec own o m x with
    | ok r =>
      rw [hx, Res.ok_bind] at h1
      rw [Res.ok_bind]
      cases hr : HashOwn.run own o r.2.2 xs with
      | ok t =>
        rw [hr, Res.ok_bind] at h1
        cases h1
        rw [ih hr h2, Res.ok_bind]
        simp [Ledger.append]
      | ub => rw [hr] at h1; cases h1
      | fatal => rw [hr] at h1; cases h1
    | ub => rw [hx] at h1; cases h1
    | fatal => rw [hx] at h1; cases h1

theorem many_run (own : Callbacks) : ∀ n, n < 4194300 → ∃ m, HashOwn.run own oneHash (newHashmap 4194301) (manyPuts n) = .ok (List.replicate n true, {}, m) ∧ OneBucket n m := by
  intro n
  induction n with
  | zero =>
    intro _
    refine ⟨_, rfl, rfl, List.length_replicate, none, ?_, rfl, nofun⟩
    show (List.replicate 4194301 (none : Option Bucket))[0]? = _
    rw [List.getElem?_replicate, if_pos (by decide)]
  | succ n ih =>
    intro hn
    obtain ⟨m, e, hm⟩ := ih (by omega)
    obtain ⟨m', e', hm'⟩ := one_put own hm
    refine ⟨m', ?_, (hm' (by omega)).1⟩
    have : manyPuts (n + 1) = manyPuts n ++ [.put ⟨true, true, true⟩ (n + 1) 1] := by
      unfold manyPuts; rw [List.range_succ, List.map_append]; rfl
    have e2 : HashOwn.run own oneHash m [.put ⟨true, true, true⟩ (n + 1) 1] = .ok ([true], {}, m') := by
      unfold HashOwn.run HashOwn.run HashOwn.exec
      simp only []
      rw [e', Res.ok_bind, show decide (n + 1 < 4194300) = true from decide_eq_true hn]
      rfl
    rw [this, run_append own oneHash _ _ e e2, ← List.replicate_succ']
    rfl

/-- **C158** (violated) Also with all the memory it asks for: a map of the second largest size whose keys have one hash takes 4194299 keys; the put of the next one reports failure, but a lookup finds
it. -/
theorem C158_full_violated (own : Callbacks) : ∃ m m', HashOwn.run own oneHash (newHashmap 4194301) (manyPuts 4194299) = .ok (List.replicate 4194299 true, {}, m) ∧
    putOwned own oneHash ⟨true, true, true⟩ m 4194300 1 = .ok (false, {}, m') ∧ 4194300 ∈ heldKeys m' ∧ Finds oneHash m' 4194300 1 := by
  obtain ⟨m, e, hm⟩ := many_run own 4194299 (by omega)
  obtain ⟨m', e', hm'⟩ := one_put own hm
  obtain ⟨ho, rest, p, hb⟩ := hm' (by omega)
  refine ⟨m, m', e, ?_, ?_, ?_⟩
  · rw [e']; rfl
  · exact List.mem_map.2 ⟨⟨0, 4194300, 1⟩, List.mem_flatMap.2 ⟨_, List.mem_of_getElem? hb, List.mem_cons_self⟩, rfl⟩
  · have hbk : bucketAt m' (oneHash.hash 4194300) = .ok (0, some ⟨⟨0, 4194299 + 1, 1⟩ :: rest, p⟩) := by
      have hz : oneHash.hash 4194300 % m'.capacity = 0 := Nat.zero_mod _
      rw [bucket_is (by rw [ho.cap]; decide) (by rw [hz]; exact hb), hz]
    have hmatch : oneHash.matches 4194300 (oneHash.hash 4194300) ⟨0, 4194299 + 1, 1⟩ = true := by decide +kernel
    unfold Finds getFromHashmap
    rw [if_neg (by decide)]
    simp only [hbk, Res.ok_bind, scanBucket, hmatch, if_true]
    exact ⟨_, rfl⟩

theorem relinquish_chain : ∀ {ns : List (Nat × Nat)} {h : LHeap} {a f : Nat}, ns.length < f → Seg h a ns 0 → (addrs ns).Nodup →
    ∃ h', relinquishChain h f a = .ok (h', ns.map Prod.snd) ∧ ∀ b, h' b = if b ∈ addrs ns then none else h b := by
  intro ns
  induction ns with
  | nil => rintro h a f _ rfl _; exact ⟨h, by cases f <;> rfl, by simp⟩
  | cons x ns ih =>
    rintro h a f hf ⟨h1, h2, n, h3, h4⟩ hnd
    cases f with
    | zero => omega
    | succ f =>
      cases a with
      | zero => exact absurd rfl h2
      | succ a =>
        simp only [addrs, List.map_cons, List.nodup_cons] at hnd
        simp only [relinquishChain, ldE, h3, Res.ok_bind, freeE, setE_same]
        obtain ⟨h', k1, k2⟩ := ih (h := fun b => if b = a + 1 then none else setE h (a + 1) (0, n) b) (a := n) (f := f) (by simp at hf; omega)
          (seg_congr (fun y hy => by
            have hne : y ≠ a + 1 := by rintro rfl; exact hnd.1 (h1 ▸ hy)
            simp only [if_neg hne, setE_ne h _ hne]) h4) hnd.2
        rw [k1, Res.ok_bind]
        refine ⟨h', rfl, fun b => ?_⟩
        rw [k2 b]
        by_cases hb : b ∈ addrs ns
        · simp only [hb, addrs, List.map_cons, List.mem_cons, or_true, if_true]
        · by_cases hx : b = x.1
          · subst hx; simp [h1]
          · have hne : b ≠ a + 1 := by omega
            rw [if_neg hb, if_neg hne, setE_ne h _ hne, if_neg]
            simp only [addrs, List.map_cons, List.mem_cons, not_or]
            exact ⟨hx, hb⟩

/-- **C159** After every history of calls on a linked list: `DestroyLinkedList` (and `ClearLinkedList`) with a callback ends, reads and releases no element twice, hands the callback each value of the list
exactly once, in the order of the list, and leaves no element behind. -/
theorem C159_list_destroyed (capacity : Nat) (ops : List ListOp) (ha : AllocOk (newLinkedList capacity) ops) :
    ∃ outs s h', listRun (newLinkedList capacity) ops = .ok (outs, s) ∧
      destroyLinkedList s = .ok (h', ((⟨[], 0⟩ : Cursor).run (if capacity = 0 then 2 ^ 64 - 1 else capacity) ops).2.vals) ∧ ∀ a, h' a = none := by
  obtain ⟨s, h, ⟨ns, hr, hv⟩⟩ := list_run ops _ _ (new_isList capacity) ha
  obtain ⟨h', k1, k2⟩ := relinquish_chain (f := s.elements + 1) (by rw [hr.cnt]; omega) hr.seg hr.nodup
  refine ⟨_, s, h', h, ?_, fun a => ?_⟩
  · unfold destroyLinkedList
    rw [k1, hv]; rfl
  · rw [k2 a]
    by_cases hm : a ∈ addrs ns
    · rw [if_pos hm]
    · rw [if_neg hm]
      by_cases hn : s.heap a = none
      · exact hn
      · exact absurd (hr.dom a hn) hm

/-- A case: two values, one of them twice. -/
example : ((⟨[], 0⟩ : Cursor).run 10 [.append 100 7, .insertFirst 200 8, .append 300 7]).2.vals = [8, 7, 7] := by decide +kernel

end Wizard.Props

import Verif.Model.Hashmap
import Verif.Spec.Map
import Verif.Lemmas.Res
/-! Invariants of the hash map. -/
namespace Wizard
open Spec

/-- All entries, in iteration order. -/
def HMap.flat (m : HMap) : List Entry := m.map.flatMap bucketVals

theorem flat_set {map : List (Option Bucket)} {i : Nat} {b : Option Bucket} (h : map[i]? = some b) :
    ∃ rest, (map.flatMap bucketVals).Perm (bucketVals b ++ rest) ∧
      ∀ b', ((map.set i b').flatMap bucketVals).Perm (bucketVals b' ++ rest) := by
  induction map generalizing i with
  | nil => simp at h
  | cons x map ih =>
    cases i with
    | zero =>
      simp at h; subst h
      exact ⟨map.flatMap bucketVals, by simp, fun b' => by simp⟩
    | succ i =>
      obtain ⟨rest, h1, h2⟩ := ih (i := i) (by simpa using h)
      refine ⟨bucketVals x ++ rest, ?_, fun b' => ?_⟩
      · simp only [List.flatMap_cons]
        refine (h1.append_left _).trans ?_
        rw [← List.append_assoc, ← List.append_assoc]
        exact List.perm_append_comm.append_right _
      · simp only [List.set_cons_succ, List.flatMap_cons]
        refine ((h2 b').append_left _).trans ?_
        rw [← List.append_assoc, ← List.append_assoc]
        exact List.perm_append_comm.append_right _

/-- Every entry is in the bucket its hash selects. -/
def Placed (cap : Nat) (map : List (Option Bucket)) : Prop :=
  ∀ i b, map[i]? = some b → ∀ e ∈ bucketVals b, e.hash % cap = i

theorem Placed.set {cap i map b'} (h : Placed cap map) (hb : ∀ e ∈ bucketVals b', e.hash % cap = i) :
    Placed cap (map.set i b') := by
  intro j b hj e he
  rw [List.getElem?_set] at hj
  split at hj
  · rename_i hij
    split at hj
    · simp at hj; subst hj; subst hij; exact hb e he
    · simp at hj
  · exact h j b hj e he

/-- The relation "same key" that the callbacks induce. -/
def HashOps.same (o : HashOps) (k k' : Nat) : Bool :=
  if o.hash k' = o.hash k then
    match o.compare with
    | none => true
    | some c => c k k'
  else false

theorem same_hash {o : HashOps} {k k' : Nat} (h : o.same k k' = true) : o.hash k' = o.hash k := by
  unfold HashOps.same at h
  split at h
  · assumption
  · simp at h

theorem matches_same {o : HashOps} {key : Nat} {e : Entry} (h : e.hash = o.hash e.key) :
    o.matches key (o.hash key) e = o.same key e.key := by
  unfold HashOps.matches HashOps.same; rw [h]; rfl

/-- The state of a hash map that stores the bindings `s`. -/
structure HInv (o : HashOps) (m : HMap) (s : Bindings) : Prop where
  pos : 0 < m.capacity
  len : m.map.length = m.capacity
  placed : Placed m.capacity m.map
  hash : ∀ e ∈ m.flat, e.hash = o.hash e.key
  nonnull : ∀ e ∈ m.flat, e.key ≠ 0 ∧ e.value ≠ 0
  distinct : m.flat.Pairwise fun a b => o.same a.key b.key = false
  perm : (m.flat.map fun e => (e.key, e.value)).Perm s

theorem scan_spec (o : HashOps) (key h : Nat) (l : List Entry) (i : Nat) :
    (scanBucket o key h l i = (none, i + l.length) ∧ ∀ e ∈ l, o.matches key h e = false) ∨
    ∃ xs e ys, l = xs ++ e :: ys ∧ o.matches key h e = true ∧
      (∀ x ∈ xs, o.matches key h x = false) ∧
      scanBucket o key h l i = (some (i + xs.length, e), i + xs.length + 1) := by
  induction l generalizing i with
  | nil => left; simp [scanBucket]
  | cons a l ih =>
    unfold scanBucket
    by_cases ha : o.matches key h a = true
    · right; exact ⟨[], a, l, by simp, ha, by simp, by simp [ha]⟩
    · rw [if_neg ha]
      rcases ih (i + 1) with ⟨h1, h2⟩ | ⟨xs, e, ys, h1, h2, h3, h4⟩
      · left
        refine ⟨by rw [h1]; simp; omega, ?_⟩
        intro e he
        rcases List.mem_cons.1 he with rfl | he
        · simpa using ha
        · exact h2 e he
      · right
        refine ⟨a :: xs, e, ys, by simp [h1], h2, ?_, by rw [h4]; simp; omega⟩
        intro x hx
        rcases List.mem_cons.1 hx with rfl | hx
        · simpa using ha
        · exact h3 x hx

theorem bucketAt_ok {o m s} (h : HInv o m s) (k : Nat) :
    ∃ b, bucketAt m k = .ok (k % m.capacity, b) ∧ m.map[k % m.capacity]? = some b := by
  have hl : k % m.capacity < m.map.length := by rw [h.len]; exact Nat.mod_lt _ h.pos
  refine ⟨m.map[k % m.capacity], ?_, List.getElem?_eq_getElem hl⟩
  unfold bucketAt
  rw [if_neg (Nat.pos_iff_ne_zero.1 h.pos), List.getElem?_eq_getElem hl]

/-- A change that keeps the entries and the shape. -/
theorem HInv.of_flat {o m s m'} (h : HInv o m s) (hc : m'.capacity = m.capacity)
    (hl : m'.map.length = m.map.length) (hp : Placed m.capacity m'.map) (hf : m'.flat.Perm m.flat)
    (hsym : ∀ a b, o.same a b = true → o.same b a = true) : HInv o m' s where
  pos := hc ▸ h.pos
  len := by rw [hl, hc, h.len]
  placed := hc ▸ hp
  hash e he := h.hash e (hf.mem_iff.1 he)
  nonnull e he := h.nonnull e (hf.mem_iff.1 he)
  distinct := hf.symm.pairwise h.distinct fun {a b} hab => by
    rw [← Bool.not_eq_true] at hab ⊢; exact fun hh => hab (hsym _ _ hh)
  perm := (hf.map _).trans h.perm

/-- Moving an iterator keeps everything. -/
theorem HInv.setPos {o m s} {i : Nat} {b : Bucket} (h : HInv o m s)
    (hb : m.map[i]? = some (some b)) (p : Nat) (nx : Nat) (hd : Bool)
    (hsym : ∀ a b, o.same a b = true → o.same b a = true) :
    HInv o { m with map := m.map.set i (some ⟨b.vals, p⟩), next := nx, headOfList := hd } s := by
  obtain ⟨rest, h1, h2⟩ := flat_set hb
  refine h.of_flat rfl (by simp) (h.placed.set fun e he => h.placed i _ hb e he)
    ((h2 (some ⟨b.vals, p⟩)).trans h1.symm) hsym

theorem lookup_perm {same : Nat → Nat → Bool} {s s' : Bindings} {k : Nat} (he : Spec.Equiv same)
    (hd : s.Pairwise fun a b => same a.1 b.1 = false) (hp : s.Perm s') :
    Bindings.lookup same s k = Bindings.lookup same s' k := by
  have key : ∀ {t : Bindings} {b : Nat × Nat}, (t.Pairwise fun a b => same a.1 b.1 = false) →
      b ∈ t → same k b.1 = true → t.find? (fun b => same k b.1) = some b := by
    intro t b ht hb hs
    induction ht with
    | nil => simp at hb
    | @cons a l hal _ ih =>
      rcases List.mem_cons.1 hb with rfl | hb
      · simp [hs]
      · rw [List.find?_cons_of_neg, ih hb]
        intro hk
        have := he.2.2 _ _ _ (he.2.1 _ _ hk) hs
        rw [hal b hb] at this; simp at this
  have hd' : s'.Pairwise fun a b => same a.1 b.1 = false :=
    hp.pairwise hd fun {a b} hab => by
      rw [← Bool.not_eq_true] at hab ⊢; exact fun hh => hab (he.2.1 _ _ hh)
  unfold Bindings.lookup
  by_cases hx : ∃ b ∈ s, same k b.1 = true
  · obtain ⟨b, hb, hs⟩ := hx
    rw [key hd hb hs, key hd' (hp.mem_iff.1 hb) hs]
  · have h1 : s.find? (fun b => same k b.1) = none := by
      rw [List.find?_eq_none]; intro x hx' hh; exact hx ⟨x, hx', hh⟩
    have h2 : s'.find? (fun b => same k b.1) = none := by
      rw [List.find?_eq_none]; intro x hx' hh; exact hx ⟨x, hp.mem_iff.2 hx', hh⟩
    rw [h1, h2]

/-- The bindings of the entries of a map. -/
abbrev bind2 (l : List Entry) : Bindings := l.map fun e => (e.key, e.value)

theorem lookup_mid {o : HashOps} {l : List Entry} {e : Entry} {k : Nat} (he : Spec.Equiv o.same)
    (hd : l.Pairwise fun a b => o.same a.key b.key = false) (hp : (bind2 l).Perm s)
    (hm : e ∈ l) (hs : o.same k e.key = true) : Bindings.lookup o.same s k = e.value := by
  obtain ⟨xs, ys, rfl⟩ := List.append_of_mem hm
  have hd2 : (bind2 (xs ++ e :: ys)).Pairwise fun a b => o.same a.1 b.1 = false := by
    rw [List.pairwise_map]; exact hd
  have hp2 : (bind2 (xs ++ e :: ys)).Perm (bind2 (e :: (xs ++ ys))) := List.perm_middle.map _
  rw [← lookup_perm he hd2 hp, lookup_perm he hd2 hp2]
  simp [Bindings.lookup, bind2, hs]

theorem lookup_none {o : HashOps} {l : List Entry} {k : Nat} (hp : (bind2 l).Perm s)
    (hn : ∀ e ∈ l, o.same k e.key = false) :
    Bindings.lookup o.same s k = 0 ∧ Bindings.without o.same s k = s := by
  have hs : ∀ b ∈ s, o.same k b.1 = false := by
    intro b hb
    obtain ⟨e, he, rfl⟩ := List.mem_map.1 (hp.mem_iff.2 hb)
    exact hn e he
  constructor
  · unfold Bindings.lookup
    rw [List.find?_eq_none.2 (by intro x hx; simp [hs x hx])]; rfl
  · unfold Bindings.without
    rw [List.filter_eq_self]; intro b hb; simp [hs b hb]

theorem without_perm {o : HashOps} {l l' : List Entry} {e : Entry} {k : Nat}
    (he : Spec.Equiv o.same) (hd : l.Pairwise fun a b => o.same a.key b.key = false)
    (hp : (bind2 l).Perm s) (hl : l.Perm (e :: l')) (hs : o.same k e.key = true) :
    (bind2 l').Perm (Bindings.without o.same s k) := by
  have hd' : (e :: l').Pairwise fun a b => o.same a.key b.key = false :=
    hl.pairwise hd fun {a b} hab => by
      rw [← Bool.not_eq_true] at hab ⊢; exact fun hh => hab (he.2.1 _ _ hh)
  have hp2 : (bind2 (e :: l')).Perm s := (hl.symm.map _).trans hp
  have hf := hp2.filter fun b => !o.same k b.1
  refine List.Perm.trans ?_ hf
  simp only [bind2, List.map_cons]
  rw [List.filter_cons_of_neg (by simp [hs]), List.filter_eq_self.2]
  intro b hb
  obtain ⟨x, hx, rfl⟩ := List.mem_map.1 hb
  have := (List.pairwise_cons.1 hd').1 x hx
  simp only [Bool.not_eq_true']
  rw [← Bool.not_eq_true]; intro hh
  have := he.2.2 _ _ _ (he.2.1 _ _ hs) hh
  simp_all

theorem bucket_split {o m s} (he : Spec.Equiv o.same) (h : HInv o m s) (key : Nat) :
    ∃ b rest, bucketAt m (o.hash key) = .ok (o.hash key % m.capacity, b) ∧
      m.map[o.hash key % m.capacity]? = some b ∧ m.flat.Perm (bucketVals b ++ rest) ∧
      (∀ b', ((m.map.set (o.hash key % m.capacity) b').flatMap bucketVals).Perm
        (bucketVals b' ++ rest)) ∧ ∀ e ∈ rest, o.same key e.key = false := by
  obtain ⟨b, hb, hb'⟩ := bucketAt_ok h (o.hash key)
  obtain ⟨rest, hr1, hr2⟩ := flat_set hb'
  refine ⟨b, rest, hb, hb', hr1, hr2, fun e hx => ?_⟩
  rw [← Bool.not_eq_true]; intro hs
  have hxf : e ∈ m.flat := hr1.mem_iff.2 (List.mem_append_right _ hx)
  have hin : e ∈ bucketVals b := by
    obtain ⟨c, hc, hxc⟩ := List.mem_flatMap.1 hxf
    obtain ⟨j, hj⟩ := List.mem_iff_getElem?.1 hc
    have := h.placed j c hj e hxc
    rw [h.hash e hxf, same_hash hs] at this
    subst this; rw [hb'] at hj; cases hj; exact hxc
  have hd : (bucketVals b ++ rest).Pairwise fun a b => o.same a.key b.key = false :=
    hr1.pairwise h.distinct fun {a b} hab => by
      rw [← Bool.not_eq_true] at hab ⊢; exact fun hh => hab (he.2.1 _ _ hh)
  have := (List.pairwise_append.1 hd).2.2 e hin e hx
  rw [he.1] at this; simp at this

/-- What is left of the bucket's entries when the key's entry is taken out. -/
structure Rest (o : HashOps) (m : HMap) (s : Bindings) (key : Nat) (l : List Entry) : Prop where
  sub : ∀ e ∈ l, e ∈ m.flat
  distinct : l.Pairwise fun a b => o.same a.key b.key = false
  other : ∀ e ∈ l, o.same key e.key = false
  perm : (bind2 l).Perm (Bindings.without o.same s key)

theorem rest_absent {o m s key l} (he : Spec.Equiv o.same) (h : HInv o m s) (hl : m.flat.Perm l)
    (hn : ∀ e ∈ l, o.same key e.key = false) : Rest o m s key l where
  sub e hx := hl.mem_iff.2 hx
  distinct := hl.pairwise h.distinct fun {a b} hab => by
    rw [← Bool.not_eq_true] at hab ⊢; exact fun hh => hab (he.2.1 _ _ hh)
  other := hn
  perm := by
    rw [(lookup_none ((hl.symm.map _).trans h.perm) hn).2]
    exact (hl.symm.map _).trans h.perm

theorem rest_present {o m s key l e} (he : Spec.Equiv o.same) (h : HInv o m s)
    (hl : m.flat.Perm (e :: l)) (hs : o.same key e.key = true) : Rest o m s key l := by
  have hd : (e :: l).Pairwise fun a b => o.same a.key b.key = false :=
    hl.pairwise h.distinct fun {a b} hab => by
      rw [← Bool.not_eq_true] at hab ⊢; exact fun hh => hab (he.2.1 _ _ hh)
  refine ⟨fun x hx => hl.mem_iff.2 (List.mem_cons_of_mem _ hx), (List.pairwise_cons.1 hd).2, ?_,
    without_perm he h.distinct h.perm hl hs⟩
  intro x hx
  rw [← Bool.not_eq_true]; intro hh
  have h1 := he.2.2 _ _ _ (he.2.1 _ _ hs) hh
  rw [(List.pairwise_cons.1 hd).1 x hx] at h1; simp at h1

theorem get_ok {o m s} (he : Spec.Equiv o.same) (h : HInv o m s) (key : Nat) :
    (getFromHashmap o m key).Ok fun r =>
      r.1 = (if key = 0 then 0 else Bindings.lookup o.same s key) ∧ HInv o r.2 s ∧
      r.2.entries = m.entries := by
  unfold getFromHashmap
  by_cases hk : key = 0
  · simp only [if_pos hk]; exact ⟨_, rfl, rfl, h, rfl⟩
  simp only [if_neg hk]
  obtain ⟨b, rest, hb, hb', hr1, hr2, hr3⟩ := bucket_split he h key
  rw [hb]
  simp only [Res.ok_bind]
  cases b with
  | none =>
    refine ⟨_, rfl, ?_, h, rfl⟩
    refine (lookup_none h.perm fun e hx => ?_).1.symm
    exact hr3 e (by simpa [bucketVals] using hr1.mem_iff.1 hx)
  | some b =>
    refine ⟨_, rfl, ?_, h.setPos hb' _ _ _ he.2.1, rfl⟩
    have hmem : ∀ e ∈ b.vals, e ∈ m.flat := fun e hx =>
      hr1.mem_iff.2 (List.mem_append_left _ hx)
    rcases scan_spec o key (o.hash key) b.vals 0 with ⟨h1, h2⟩ | ⟨xs, e, ys, h1, h2, h3, h4⟩
    · rw [h1]
      refine (lookup_none h.perm fun e hx => ?_).1.symm
      rcases List.mem_append.1 (hr1.mem_iff.1 hx) with hx' | hx'
      · rw [← matches_same (h.hash e hx)]; exact h2 e hx'
      · exact hr3 e hx'
    · simp only [h4]
      have hx : e ∈ m.flat := hmem e (by simp [h1])
      rw [matches_same (h.hash e hx)] at h2
      exact (lookup_mid he h.distinct h.perm hx h2).symm

theorem HInv.make {o m s m' s' l} (h : HInv o m s) (hc : m'.capacity = m.capacity)
    (hl : m'.map.length = m.map.length) (hp : Placed m.capacity m'.map) (hf : m'.flat.Perm l)
    (hh : ∀ e ∈ l, e.hash = o.hash e.key) (hn : ∀ e ∈ l, e.key ≠ 0 ∧ e.value ≠ 0)
    (hd : l.Pairwise fun a b => o.same a.key b.key = false) (hs : (bind2 l).Perm s')
    (hsym : ∀ a b, o.same a b = true → o.same b a = true) : HInv o m' s' where
  pos := hc ▸ h.pos
  len := by rw [hl, hc, h.len]
  placed := hc ▸ hp
  hash e he := hh e (hf.mem_iff.1 he)
  nonnull e he := hn e (hf.mem_iff.1 he)
  distinct := hf.symm.pairwise hd fun {a b} hab => by
    rw [← Bool.not_eq_true] at hab ⊢; exact fun hh => hab (hsym _ _ hh)
  perm := (hf.map _).trans hs

theorem remove_ok {o m s} (he : Spec.Equiv o.same) (h : HInv o m s) (key : Nat) :
    (removeFromHashmap o m key).Ok fun r =>
      r.1 = (if key = 0 then 0 else Bindings.lookup o.same s key) ∧
      HInv o r.2 (if key = 0 then s else Bindings.without o.same s key) ∧
      (r.1 = 0 → r.2.entries = m.entries) ∧
      (r.1 ≠ 0 → r.2.entries = decSize m.entries) := by
  unfold removeFromHashmap
  by_cases hk : key = 0
  · simp only [if_pos hk]; exact ⟨_, rfl, rfl, h, fun _ => rfl, fun h => absurd rfl h⟩
  simp only [if_neg hk]
  obtain ⟨b, rest, hb, hb', hr1, hr2, hr3⟩ := bucket_split he h key
  simp only [hb, Res.ok_bind]
  cases b with
  | none =>
    have hn := lookup_none (k := key) h.perm fun e hx =>
      hr3 e (by simpa [bucketVals] using hr1.mem_iff.1 hx)
    exact ⟨_, rfl, hn.1.symm, by rw [hn.2]; exact h, fun _ => rfl, by simp⟩
  | some b =>
    have hmem : ∀ e ∈ b.vals, e ∈ m.flat := fun e hx =>
      hr1.mem_iff.2 (List.mem_append_left _ hx)
    rcases scan_spec o key (o.hash key) b.vals 0 with ⟨h1, h2⟩ | ⟨xs, e, ys, h1, h2, h3, h4⟩
    · simp only [h1]
      have hn := lookup_none (k := key) h.perm fun e hx => by
        rcases List.mem_append.1 (hr1.mem_iff.1 hx) with hx' | hx'
        · rw [← matches_same (h.hash e hx)]; exact h2 e hx'
        · exact hr3 e hx'
      exact ⟨_, rfl, hn.1.symm, by rw [hn.2]; exact h.setPos hb' _ _ _ he.2.1, fun _ => rfl, by simp⟩
    · simp only [h4]
      have hx : e ∈ m.flat := hmem e (by simp [h1])
      rw [matches_same (h.hash e hx)] at h2
      refine ⟨_, rfl, (lookup_mid he h.distinct h.perm hx h2).symm, ?_, ?_, fun _ => rfl⟩
      · have hv : bucketVals (some (Bucket.remove ⟨b.vals, 0 + xs.length + 1⟩ (0 + xs.length))) =
            xs ++ ys := by
          simp [bucketVals, Bucket.remove, h1, List.eraseIdx_append_of_length_le]
        have hR : Rest o m s key (xs ++ ys ++ rest) := by
          refine rest_present he h (hr1.trans ?_) h2
          simp only [bucketVals, h1, List.append_assoc, List.cons_append]
          exact List.perm_middle
        refine h.make rfl (by simp) (h.placed.set ?_) (hr2 _) ?_ ?_ ?_ ?_ he.2.1
        · rw [hv]; intro x hx'
          refine h.placed _ _ hb' x ?_
          simp only [bucketVals, h1]
          rcases List.mem_append.1 hx' with hx' | hx' <;> simp [hx']
        all_goals rw [hv]
        · exact fun x hx' => h.hash x (hR.sub x hx')
        · exact fun x hx' => h.nonnull x (hR.sub x hx')
        · exact hR.distinct
        · exact hR.perm
      · intro h0; exact absurd h0 (h.nonnull e hx).2

theorem rehash_ok {c : Nat} (hc : 0 < c) (l : List Entry) (map : List (Option Bucket))
    (hlen : map.length = c) (hp : Placed c map) :
    (l.foldl (rehashEntry c) map).length = c ∧ Placed c (l.foldl (rehashEntry c) map) ∧
      ((l.foldl (rehashEntry c) map).flatMap bucketVals).Perm (l ++ map.flatMap bucketVals) := by
  induction l generalizing map with
  | nil => exact ⟨hlen, hp, by simp⟩
  | cons e l ih =>
    have hlt : e.hash % c < map.length := by rw [hlen]; exact Nat.mod_lt _ hc
    have key : (rehashEntry c map e).length = c ∧ Placed c (rehashEntry c map e) ∧
        ((rehashEntry c map e).flatMap bucketVals).Perm (e :: map.flatMap bucketVals) := by
      unfold rehashEntry
      simp only []
      split
      · rename_i b hb
        obtain ⟨rest, h1, h2⟩ := flat_set hb
        refine ⟨by simpa using hlen, hp.set ?_, (h2 _).trans (by simpa [bucketVals] using h1.symm)⟩
        intro x hx
        rcases List.mem_cons.1 (by simpa [bucketVals] using hx) with rfl | hx
        · rfl
        · exact hp _ _ hb x (by simpa [bucketVals] using hx)
      · rename_i hb
        have hb' : map[e.hash % c]? = some none := by
          rw [List.getElem?_eq_getElem hlt] at hb ⊢
          cases hq : map[e.hash % c] with
          | none => rfl
          | some b => exact absurd (by rw [hq]) (hb b)
        obtain ⟨rest, h1, h2⟩ := flat_set hb'
        refine ⟨by simpa using hlen, hp.set ?_, (h2 _).trans (by simpa [bucketVals] using h1.symm)⟩
        intro x hx
        simp [bucketVals] at hx; rw [hx]
    obtain ⟨k1, k2, k3⟩ := key
    obtain ⟨i1, i2, i3⟩ := ih _ k1 k2
    refine ⟨i1, i2, i3.trans ?_⟩
    refine (k3.append_left l).trans ?_
    simp only [List.cons_append]
    exact List.perm_middle

theorem nextCapacity_pos {c c' : Nat} (h : nextCapacity c = some c') : 0 < c' := by
  unfold nextCapacity at h
  simp only [] at h
  split at h
  · simp at h
  · have : c' ∈ capacities := List.mem_of_getElem? h
    simp [capacities] at this; omega

theorem nextCapacity_some {c : Nat} (h : c < 4194301) : nextCapacity c ≠ none := by
  unfold nextCapacity
  simp only []
  split
  · rename_i h19
    have := List.not_of_lt_findIdx (xs := capacities) (p := fun x => decide (c < x)) (i := 18)
      (by omega)
    have h18 : capacities[18]'(by decide) = 4194301 := rfl
    simp only [h18, decide_eq_true_eq] at this
    exact absurd h (by simpa using this)
  · rw [ne_eq, List.getElem?_eq_none_iff]
    have : capacities.length = 20 := rfl
    omega

theorem increase_ok {o m s} (he : Spec.Equiv o.same) (h : HInv o m s) :
    HInv o (increaseCapacity m).2 s ∧ (increaseCapacity m).2.entries = m.entries := by
  unfold increaseCapacity
  split
  · exact ⟨h, rfl⟩
  · rename_i c hc
    have hp := nextCapacity_pos hc
    obtain ⟨h1, h2, h3⟩ := rehash_ok hp m.flat (List.replicate c none) (by simp)
      (by
        intro i b hb e hx
        rw [List.getElem?_replicate] at hb
        split at hb <;> simp at hb
        subst hb; simp [bucketVals] at hx)
    have h4 : (List.flatMap bucketVals (List.replicate c none)) = [] := by
      simp [List.flatMap_eq_nil_iff, bucketVals]
    rw [h4, List.append_nil] at h3
    refine ⟨⟨hp, h1, h2, fun e hx => h.hash e (h3.mem_iff.1 hx),
      fun e hx => h.nonnull e (h3.mem_iff.1 hx), h3.symm.pairwise h.distinct fun {a b} hab => by
        rw [← Bool.not_eq_true] at hab ⊢; exact fun hh => hab (he.2.1 _ _ hh),
      (h3.map _).trans h.perm⟩, rfl⟩

theorem putBucket_rest {o m s key} {b : Option Bucket} {rest : List Entry} (he : Spec.Equiv o.same)
    (h : HInv o m s) (hr1 : m.flat.Perm (bucketVals b ++ rest))
    (hr3 : ∀ e ∈ rest, o.same key e.key = false) :
    Rest o m s key ((putBucket o key (o.hash key) b).vals ++ rest) ∧
      ∀ e ∈ (putBucket o key (o.hash key) b).vals, e ∈ bucketVals b := by
  cases b with
  | none => exact ⟨rest_absent he h hr1 (by simpa [putBucket] using hr3), by simp [putBucket]⟩
  | some b =>
    have hmem : ∀ e ∈ b.vals, e ∈ m.flat := fun e hx =>
      hr1.mem_iff.2 (List.mem_append_left _ hx)
    unfold putBucket
    rcases scan_spec o key (o.hash key) b.vals 0 with ⟨h1, h2⟩ | ⟨xs, e, ys, h1, h2, h3, h4⟩
    · simp only [h1]
      refine ⟨rest_absent he h hr1 fun e hx => ?_, fun e hx => hx⟩
      rcases List.mem_append.1 hx with hx' | hx'
      · rw [← matches_same (h.hash e (hmem e hx'))]; exact h2 e hx'
      · exact hr3 e hx'
    · simp only [h4]
      have hx : e ∈ m.flat := hmem e (by simp [h1])
      rw [matches_same (h.hash e hx)] at h2
      have hv : (Bucket.remove ⟨b.vals, 0 + xs.length + 1⟩ (0 + xs.length)).vals = xs ++ ys := by
        simp [Bucket.remove, h1, List.eraseIdx_append_of_length_le]
      rw [hv]
      constructor
      · refine rest_present he h (hr1.trans ?_) h2
        simp only [bucketVals, h1, List.append_assoc, List.cons_append]
        exact List.perm_middle
      · intro x hx'
        simp only [bucketVals, h1]
        rcases List.mem_append.1 hx' with hx' | hx' <;> simp [hx']

theorem put_ok {o m s} (he : Spec.Equiv o.same) (h : HInv o m s) (key value : Nat) :
    (putInHashmap o m key value).Ok fun r =>
      HInv o r.2 (if key = 0 ∨ value = 0 then s else (key, value) :: Bindings.without o.same s key) ∧
      (r.1 = false → r.2.entries = m.entries) ∧
      (r.1 = true → r.2.entries = incSize m.entries) ∧
      (r.1 = false → key = 0 ∨ value = 0 ∨ nextCapacity m.capacity = none) := by
  unfold putInHashmap
  by_cases hk : key = 0 ∨ value = 0
  · simp only [if_pos hk]
    exact ⟨_, rfl, h, fun _ => rfl, by simp,
      fun _ => hk.elim .inl fun h => .inr (.inl h)⟩
  simp only [if_neg hk]
  obtain ⟨b, rest, hb, hb', hr1, hr2, hr3⟩ := bucket_split he h key
  simp only [hb, Res.ok_bind]
  obtain ⟨hR, hsub⟩ := putBucket_rest he h hr1 hr3
  generalize hB : putBucket o key (o.hash key) b = B at *
  have hI : HInv o { m with
        map := m.map.set (o.hash key % m.capacity) (some (B.insertFront ⟨o.hash key, key, value⟩)) }
      ((key, value) :: Bindings.without o.same s key) := by
    refine h.make rfl (by simp) (h.placed.set ?_) (hr2 _) ?_ ?_ ?_ ?_ he.2.1
    · intro x hx
      rcases List.mem_cons.1 (by simpa [bucketVals, Bucket.insertFront] using hx) with rfl | hx
      · rfl
      · exact h.placed _ _ hb' x (hsub x hx)
    all_goals simp only [bucketVals, Bucket.insertFront, List.cons_append]
    · intro x hx
      rcases List.mem_cons.1 hx with rfl | hx
      · rfl
      · exact h.hash x (hR.sub x hx)
    · intro x hx
      rcases List.mem_cons.1 hx with rfl | hx
      · exact ⟨fun h => hk (.inl h), fun h => hk (.inr h)⟩
      · exact h.nonnull x (hR.sub x hx)
    · exact List.pairwise_cons.2 ⟨hR.other, hR.distinct⟩
    · exact hR.perm.cons _
  have hJ := increase_ok he hI
  have hfail : (increaseCapacity { m with
        map := m.map.set (o.hash key % m.capacity)
          (some (B.insertFront ⟨o.hash key, key, value⟩)) }).1 = false →
      nextCapacity m.capacity = none := by
    unfold increaseCapacity
    simp only []
    cases nextCapacity m.capacity <;> simp
  generalize hX : increaseCapacity _ = X at hJ hfail ⊢
  obtain ⟨ok, m'⟩ := X
  split
  · simp only []
    split
    · exact ⟨_, rfl, hJ.1, fun _ => hJ.2, by simp, fun _ => .inr (.inr (hfail (by assumption)))⟩
    · refine ⟨_, rfl, ?_, by simp, fun _ => congrArg incSize hJ.2, by simp⟩
      exact ⟨hJ.1.pos, hJ.1.len, hJ.1.placed, hJ.1.hash, hJ.1.nonnull, hJ.1.distinct, hJ.1.perm⟩
  · refine ⟨_, rfl, ?_, by simp, fun _ => rfl, by simp⟩
    exact ⟨hI.pos, hI.len, hI.placed, hI.hash, hI.nonnull, hI.distinct, hI.perm⟩

theorem new_ok (o : HashOps) {c : Nat} (hc : 0 < c) : HInv o (newHashmap c) [] := by
  have h4 : (newHashmap c).flat = [] := by
    simp [HMap.flat, newHashmap, List.flatMap_eq_nil_iff, bucketVals]
  refine ⟨hc, by simp [newHashmap], ?_, ?_, ?_, ?_, ?_⟩
  · intro i b hb e hx
    simp only [newHashmap] at hb
    rw [List.getElem?_replicate] at hb
    split at hb <;> simp at hb
    subst hb; simp [bucketVals] at hx
  all_goals rw [h4]; simp

/-! ### Iteration -/

/-- The entries the iterator has not yet returned. -/
def HMap.remaining (m : HMap) : List Entry :=
  if m.headOfList then
    match m.map[m.next]? with
    | some (some b) => b.vals.drop b.pos ++ (m.map.drop (m.next + 1)).flatMap bucketVals
    | _ => (m.map.drop (m.next + 1)).flatMap bucketVals
  else (m.map.drop m.next).flatMap bucketVals

/-- When the iterator is inside a bucket, there is a bucket. -/
def HMap.IterOk (m : HMap) : Prop :=
  m.headOfList = true → ∃ b, m.map[m.next]? = some (some b)

/-- Same buckets up to the iterators in them. -/
def SameVals (map map' : List (Option Bucket)) : Prop :=
  map'.map (Option.map Bucket.vals) = map.map (Option.map Bucket.vals)

theorem SameVals.setPos {map : List (Option Bucket)} {i : Nat} {b : Bucket} {p : Nat}
    (h : map[i]? = some (some b)) : SameVals map (map.set i (some ⟨b.vals, p⟩)) := by
  unfold SameVals
  rw [List.map_set]
  refine List.ext_getElem? fun j => ?_
  rw [List.getElem?_set]
  split
  · rename_i hij; subst hij
    have : i < map.length := (List.getElem?_eq_some_iff.1 h).1
    have h2 : map[i] = some b := by
      rw [List.getElem?_eq_getElem this] at h; simpa using h
    simp [this, h2]
  · rfl

theorem SameVals.flat {m m' : HMap} (h : SameVals m.map m'.map) : m'.flat = m.flat := by
  have : ∀ l : List (Option Bucket),
      l.flatMap bucketVals = (l.map (Option.map Bucket.vals)).flatMap (·.getD []) := by
    intro l
    rw [List.flatMap_map]
    congr 1; funext b; cases b <;> rfl
  unfold HMap.flat; rw [this, this, h]

theorem SameVals.inv {o m s m'} (he : Spec.Equiv o.same) (h : HInv o m s)
    (hv : SameVals m.map m'.map) (hc : m'.capacity = m.capacity) : HInv o m' s := by
  refine h.of_flat hc ?_ ?_ (by rw [hv.flat]) he.2.1
  · simpa using congrArg List.length hv
  · intro i b hb e hx
    have h2 : (m'.map.map (Option.map Bucket.vals))[i]? = some (b.map Bucket.vals) := by
      rw [List.getElem?_map, hb]; rfl
    rw [hv, List.getElem?_map, Option.map_eq_some_iff] at h2
    obtain ⟨c, h3, h4⟩ := h2
    refine h.placed i c h3 e ?_
    cases b <;> cases c <;> simp_all [bucketVals]

theorem nextLoop_ok (n : Nat) (m : HMap) (hl : m.map.length = m.capacity)
    (hn : n = m.capacity - m.next) (hi : m.IterOk) :
    (nextLoop n m).Ok fun r => r.1 = m.remaining.head? ∧ r.2.remaining = m.remaining.tail ∧
      SameVals m.map r.2.map ∧ r.2.capacity = m.capacity ∧ r.2.entries = m.entries ∧ r.2.IterOk := by
  induction n generalizing m with
  | zero =>
    have hge : m.map.length ≤ m.next := by omega
    have hr : m.remaining = [] := by
      unfold HMap.remaining
      rw [List.getElem?_eq_none hge, List.drop_eq_nil_of_le hge,
        List.drop_eq_nil_of_le (by omega)]
      simp
    exact ⟨_, rfl, by simp [hr], by simp [hr], rfl, rfl, rfl, hi⟩
  | succ n ih =>
    have hlt : m.next < m.map.length := by omega
    unfold nextLoop
    cases hb : m.map[m.next]? with
    | none => simp at hb; omega
    | some b =>
      have hdrop : m.map.drop m.next = b :: m.map.drop (m.next + 1) := by
        rw [List.drop_eq_getElem_cons hlt]
        rw [List.getElem?_eq_getElem hlt] at hb
        simp at hb; rw [hb]
      cases b with
      | none =>
        have hd : m.headOfList = false := by
          cases hq : m.headOfList with
          | false => rfl
          | true => obtain ⟨b, hb2⟩ := hi hq; rw [hb] at hb2; simp at hb2
        obtain ⟨r, h1, h2, h3, h4, h5, h6, h7⟩ := ih { m with next := m.next + 1 } hl (by simp; omega)
          (by intro hh; simp [hd] at hh)
        have hr : ({ m with next := m.next + 1 } : HMap).remaining = m.remaining := by
          simp [HMap.remaining, hd, hdrop, bucketVals]
        rw [hr] at h2 h3
        exact ⟨r, h1, h2, h3, h4, h5, h6, h7⟩
      | some b =>
        simp only []
        generalize hB : (if m.headOfList = false then (⟨b.vals, 0⟩ : Bucket) else b) = B
        have hBv : B.vals = b.vals := by rw [← hB]; split <;> rfl
        have hr : m.remaining = B.vals.drop B.pos ++ (m.map.drop (m.next + 1)).flatMap bucketVals := by
          unfold HMap.remaining
          rw [hb, hdrop]
          cases hq : m.headOfList <;> simp [hq] at hB <;> subst hB <;> simp [bucketVals]
        have hset : ∀ p, ∀ hd nx, (∀ j, m.next < j →
            ({ m with headOfList := hd, map := m.map.set m.next (some ⟨B.vals, p⟩), next := nx }
              : HMap).map.drop j = m.map.drop j) := by
          intro p hd nx j hj
          simp only []
          rw [List.drop_set_of_lt hj]
        cases hg : B.vals[B.pos]? with
        | some e =>
          have hp : B.pos < B.vals.length := (List.getElem?_eq_some_iff.1 hg).1
          have he : B.vals.drop B.pos = e :: B.vals.drop (B.pos + 1) := by
            rw [List.drop_eq_getElem_cons hp]
            rw [List.getElem?_eq_getElem hp] at hg; simp at hg; rw [hg]
          refine ⟨_, rfl, by simp [hr, he], ?_, ?_, rfl, rfl, ?_⟩
          · rw [hr, he]
            unfold HMap.remaining
            have := hset (B.pos + 1) true m.next (m.next + 1) (by omega)
            simp only [] at this
            simp only [if_true, List.getElem?_set, if_pos hlt, this, List.cons_append,
              List.tail_cons]
          · rw [hBv]; exact SameVals.setPos hb
          · intro _; exact ⟨_, by simp [hlt]; rfl⟩
        | none =>
          have hp : B.vals.length ≤ B.pos := by simpa using hg
          have hsv : SameVals m.map (m.map.set m.next (some B)) := by
            have : B = ⟨b.vals, B.pos⟩ := by cases B; simp at hBv; rw [hBv]
            rw [this]; exact SameVals.setPos hb
          obtain ⟨r, h1, h2, h3, h4, h5, h6, h7⟩ :=
            ih { m with headOfList := false, map := m.map.set m.next (some B), next := m.next + 1 }
              (by simpa using hl) (by simp; omega) (by intro hh; simp at hh)
          have hr2 : ({ m with
              headOfList := false, map := m.map.set m.next (some B), next := m.next + 1 }
                : HMap).remaining = m.remaining := by
            rw [hr, List.drop_eq_nil_of_le hp]
            unfold HMap.remaining
            simp [List.drop_set_of_lt]
          rw [hr2] at h2 h3
          exact ⟨r, h1, h2, h3, by unfold SameVals at *; rw [h4]; exact hsv, h5, h6, h7⟩

/-- Whatever the state of the iterator, a step reads only existing buckets and changes no entry. -/
theorem nextLoop_safe (n : Nat) (m : HMap) (hl : m.map.length = m.capacity)
    (hn : n = m.capacity - m.next) :
    (nextLoop n m).Ok fun r => SameVals m.map r.2.map ∧ r.2.capacity = m.capacity ∧
      r.2.entries = m.entries := by
  induction n generalizing m with
  | zero => exact ⟨_, rfl, rfl, rfl, rfl⟩
  | succ n ih =>
    have hlt : m.next < m.map.length := by omega
    unfold nextLoop
    cases hb : m.map[m.next]? with
    | none => simp at hb; omega
    | some b =>
      cases b with
      | none => exact ih { m with next := m.next + 1 } hl (by simp; omega)
      | some b =>
        simp only []
        generalize hB : (if m.headOfList = false then (⟨b.vals, 0⟩ : Bucket) else b) = B
        have hBv : B.vals = b.vals := by rw [← hB]; split <;> rfl
        cases hg : B.vals[B.pos]? with
        | some e => exact ⟨_, rfl, by rw [hBv]; exact SameVals.setPos hb, rfl, rfl⟩
        | none =>
          have hsv : SameVals m.map (m.map.set m.next (some B)) := by
            have : B = ⟨b.vals, B.pos⟩ := by cases B; simp at hBv; rw [hBv]
            rw [this]; exact SameVals.setPos hb
          obtain ⟨r, h1, h4, h5, h6⟩ :=
            ih { m with headOfList := false, map := m.map.set m.next (some B), next := m.next + 1 }
              (by simpa using hl) (by simp; omega)
          exact ⟨r, h1, by unfold SameVals at *; rw [h4]; exact hsv, h5, h6⟩

theorem next_safe {o m s} (he : Spec.Equiv o.same) (h : HInv o m s) :
    (getNextEntry m).Ok fun r => HInv o r.2 s ∧ r.2.entries = m.entries :=
  (nextLoop_safe _ m h.len rfl).mono fun _ hr => ⟨hr.1.inv he h hr.2.1, hr.2.2⟩

/-- The bucket and position of the entry just returned. -/
theorem nextLoop_at (n : Nat) (m : HMap) {e m'} (h : nextLoop n m = .ok (some e, m')) :
    ∃ b : Bucket, m'.map[m'.next]? = some (some b) ∧ 0 < b.pos ∧ b.vals[b.pos - 1]? = some e := by
  induction n generalizing m with
  | zero => simp [nextLoop] at h
  | succ n ih =>
    unfold nextLoop at h
    cases hb : m.map[m.next]? with
    | none => simp [hb] at h
    | some b =>
      have hlt : m.next < m.map.length := (List.getElem?_eq_some_iff.1 hb).1
      cases b with
      | none => simp only [hb] at h; exact ih _ h
      | some b =>
        simp only [hb] at h
        generalize hB : (if m.headOfList = false then (⟨b.vals, 0⟩ : Bucket) else b) = B at h
        cases hg : B.vals[B.pos]? with
        | none => simp only [hg] at h; exact ih _ h
        | some e' =>
          simp only [hg] at h
          cases h
          exact ⟨⟨B.vals, B.pos + 1⟩, by simp [hlt], by simp, by simpa using hg⟩

theorem scan_found (o : HashOps) {key h : Nat} {xs ys : List Entry} {e : Entry} (i : Nat)
    (hx : ∀ x ∈ xs, o.matches key h x = false) (he : o.matches key h e = true) :
    scanBucket o key h (xs ++ e :: ys) i = (some (i + xs.length, e), i + xs.length + 1) := by
  induction xs generalizing i with
  | nil => simp [scanBucket, he]
  | cons x xs ih =>
    simp only [List.cons_append, scanBucket, hx x (by simp), Bool.false_eq_true, if_false]
    rw [ih _ fun y hy => hx y (by simp [hy])]
    simp; omega

theorem get_current {o m s e} {b : Bucket} (he : Spec.Equiv o.same) (h : HInv o m s)
    (hb : m.map[m.next]? = some (some b)) (hp : 0 < b.pos) (hg : b.vals[b.pos - 1]? = some e) :
    getFromHashmap o m e.key = .ok (e.value, m) := by
  obtain ⟨hlt, hge⟩ := List.getElem?_eq_some_iff.1 hg
  have hsplit : b.vals = b.vals.take (b.pos - 1) ++ e :: b.vals.drop b.pos := by
    conv => lhs; rw [← List.take_append_drop (b.pos - 1) b.vals]
    rw [List.drop_eq_getElem_cons hlt, hge]
    congr; omega
  have hmb : e ∈ b.vals := List.mem_of_getElem? hg
  have hmem : e ∈ m.flat := List.mem_flatMap.2 ⟨some b, List.mem_of_getElem? hb, hmb⟩
  have hidx : o.hash e.key % m.capacity = m.next := by
    rw [← h.hash e hmem]; exact h.placed _ _ hb e hmb
  obtain ⟨b', rest, h1, h2, h3, -, -⟩ := bucket_split he h e.key
  rw [hidx, hb] at h2; cases h2
  have hd : b.vals.Pairwise fun a b => o.same a.key b.key = false :=
    (List.pairwise_append.1 (h3.pairwise h.distinct fun {a b} hab => by
      rw [← Bool.not_eq_true] at hab ⊢; exact fun hh => hab (he.2.1 _ _ hh))).1
  rw [hsplit] at hd
  have hd2 := (List.pairwise_append.1 hd).2.2
  have hscan := scan_found o (key := e.key) (h := o.hash e.key) (xs := b.vals.take (b.pos - 1))
    (ys := b.vals.drop b.pos) (e := e) 0 (fun x hx => by
      rw [matches_same (h.hash x (List.mem_flatMap.2
        ⟨some b, List.mem_of_getElem? hb, List.mem_of_mem_take hx⟩)), ← Bool.not_eq_true]
      intro hh
      have := hd2 x hx e (by simp)
      rw [he.2.1 _ _ hh] at this; simp at this)
    (by rw [matches_same (h.hash e hmem)]; exact he.1 _)
  rw [← hsplit] at hscan
  unfold getFromHashmap
  rw [if_neg (h.nonnull e hmem).1, h1]
  simp only [Res.ok_bind, hscan]
  have hlen : 0 + (b.vals.take (b.pos - 1)).length + 1 = b.pos := by simp; omega
  rw [hlen, hidx]
  have : m.map.set m.next (some ⟨b.vals, b.pos⟩) = m.map := by
    refine List.ext_getElem? fun j => ?_
    rw [List.getElem?_set]
    split
    · rename_i hj; subst hj
      rw [if_pos (List.getElem?_eq_some_iff.1 hb).1, hb]
    · rfl
  rw [this]; rfl

theorem next_ok {o m s} (h : HInv o m s) (hi : m.IterOk) :
    (getNextEntry m).Ok fun r => r.1 = m.remaining.head? ∧ r.2.remaining = m.remaining.tail ∧
      SameVals m.map r.2.map ∧ r.2.capacity = m.capacity ∧ r.2.entries = m.entries ∧ r.2.IterOk :=
  nextLoop_ok _ m h.len rfl hi

end Wizard

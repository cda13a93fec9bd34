import Verif.Lemmas.SplayOwn
import Verif.Props.SplayTree
/-! C155, C156: the keys and values a splay tree owns. -/
namespace Wizard.Props
open Wizard Wizard.Spec Wizard.Spec.Own Wizard.OwnP

theorem find_remove {C : Nat → Nat → Int} (hC : IsOrder C) {l : SMap} (hl : Asc C l) (key : Nat) :
    match l.find? (fun b => C b.1 key == 0) with
    | none => SMap.remove C l key = l
    | some b => C b.1 key = 0 ∧ l.Perm (b :: SMap.remove C l key) := by
  cases hf : l.find? (fun b => C b.1 key == 0) with
  | none =>
    unfold SMap.remove
    rw [List.filter_eq_self]
    intro b hb
    have := List.find?_eq_none.1 hf b hb
    simpa using this
  | some b =>
    obtain ⟨h1, A, B, rfl, h2⟩ := List.find?_eq_some_iff_append.1 hf
    have h1 : C b.1 key = 0 := by simpa using h1
    refine ⟨h1, ?_⟩
    have hB : ∀ x ∈ B, 0 < C x.1 key := fun x hx => hC.gt_trans (a := b.1) (by omega) ((List.pairwise_cons.1 (List.pairwise_append.1 hl).2.1).1 x hx)
    have e : SMap.remove C (A ++ b :: B) key = A ++ B := by
      unfold SMap.remove
      rw [List.filter_append, List.filter_cons, if_neg (by simp [h1]), List.filter_eq_self.2, List.filter_eq_self.2]
      · intro x hx
        have := hB x hx
        simp; omega
      · intro x hx
        simpa using h2 x hx
    rw [e]
    exact List.perm_middle

theorem put_perm {C : Nat → Nat → Int} (l : SMap) (k v : Nat) : (SMap.put C l k v).Perm ((k, v) :: SMap.remove C l k) := by
  have key : ∀ l : SMap, ((l.filter fun b => decide (C b.1 k < 0)) ++ l.filter fun b => decide (0 < C b.1 k)).Perm (l.filter fun b => C b.1 k != 0) := by
    intro l
    induction l with
    | nil => exact .refl _
    | cons b l ih =>
      rw [List.filter_cons, List.filter_cons, List.filter_cons]
      rcases Int.lt_trichotomy (C b.1 k) 0 with h | h | h
      · rw [if_pos (by simpa using h), if_neg (by simp; omega), if_pos (by simp; omega)]
        exact ih.cons b
      · rw [if_neg (by simp; omega), if_neg (by simp; omega), if_neg (by simp [h])]
        exact ih
      · rw [if_neg (by simp; omega), if_pos (by simpa using h), if_pos (by simp; omega)]
        exact List.perm_middle.trans (ih.cons b)
  unfold SMap.put SMap.remove
  exact List.perm_middle.trans ((key l).cons _)

theorem find_adj {C : Nat → Nat → Int} {L R : SMap} {k v key : Nat} (hL : ∀ x ∈ L, C x.1 key < 0) (hR : ∀ x ∈ R, 0 < C x.1 key) :
    (L ++ (k, v) :: R).find? (fun b => C b.1 key == 0) = if C k key = 0 then some (k, v) else none := by
  have h1 : L.find? (fun b => C b.1 key == 0) = none := by
    rw [List.find?_eq_none]; intro x hx; have := hL x hx; simp; omega
  have h2 : R.find? (fun b => C b.1 key == 0) = none := by
    rw [List.find?_eq_none]; intro x hx; have := hR x hx; simp; omega
  rw [List.find?_append, h1, Option.none_or, List.find?_cons]
  by_cases h : C k key = 0
  · simp [h]
  · rw [show (C (k, v).1 key == 0) = false by simpa using h, h2, if_neg h]

theorem node_at {cmp : Option (Nat → Nat → Int)} (hC : IsOrder (cmpKeys cmp)) {s l} (h : SInv cmp s l) (hsz : l.length < 2 ^ 64) (key : Nat) :
    nodeAt cmp s key = .ok (l.find? fun b => cmpKeys cmp b.1 key == 0) := by
  unfold nodeAt
  cases hr : s.root with
  | nil => rw [← h.list, hr]; rfl
  | node =>
    simp only []
    obtain ⟨s', e, h', ha, -⟩ := splaySplayTree_spec hC h (by rw [hr]; simp) hsz key
    obtain ⟨tl, tk, tv, tr, ht, hL, hR⟩ := adj_cases ha
    rw [e, Res.ok_bind, ht]
    simp only []
    have hl := h'.list
    rw [ht] at hl
    rw [← hl, show (STree.node tl tk tv tr).toList = tl.toList ++ (tk, tv) :: tr.toList from rfl, find_adj hL hR]
    split <;> rfl

theorem node_with {cmp : Option (Nat → Nat → Int)} (hC : IsOrder (cmpKeys cmp)) (value : Nat) (n : Nat) : ∀ {s l} (A B : List (Nat × Nat)), SInv cmp s l → l.length < 2 ^ 64 → l = A ++ B →
    (∀ x ∈ A, x.2 ≠ value) → (∀ x ∈ l, x.1 ≠ 0) → B.length < n → nodeWith cmp value n s ((B.head?.map Prod.fst).getD 0) = .ok (l.find? fun b => b.2 == value) := by
  induction n with
  | zero => intro s l A B _ _ _ _ _ h; omega
  | succ n ih =>
    intro s l A B h hsz hl hA hnz hn
    have hfA : A.find? (fun b => b.2 == value) = none := by
      rw [List.find?_eq_none]; intro x hx; simpa using hA x hx
    cases B with
    | nil =>
      rw [List.append_nil] at hl
      subst hl
      rw [hfA]; rfl
    | cons b B =>
      have hb0 : b.1 ≠ 0 := hnz b (by rw [hl]; simp)
      have hroot : s.root ≠ .nil := by
        intro e
        have := h.list
        rw [e, hl] at this; simp [STree.toList] at this
      show nodeWith cmp value (n + 1) s b.1 = _
      unfold nodeWith
      rw [if_neg hb0]
      obtain ⟨s', e, h', ha, -⟩ := splaySplayTree_spec hC h hroot hsz b.1
      obtain ⟨tl, tk, tv, tr, ht, hL, hR⟩ := adj_cases ha
      have hl' := h'.list
      rw [ht] at hl'
      simp only [STree.toList] at hl'
      rw [hl] at hl'
      obtain ⟨e1, e2, e3⟩ := adj_root hC hL hR (hl ▸ h.asc) (hC.refl _) hl'
      rw [e, Res.ok_bind, ht]
      simp only []
      by_cases hv : tv = value
      · rw [if_pos hv]
        obtain ⟨s2, e', h2, ha2, -⟩ := splaySplayTree_spec hC h' (by rw [ht]; simp) hsz tk
        obtain ⟨ul, uk, uv, ur, hu, hL2, hR2⟩ := adj_cases ha2
        have hl2 := h2.list
        rw [hu] at hl2
        simp only [STree.toList] at hl2
        have htk : b.1 = tk := by rw [← e2]
        rw [hl] at hl2
        obtain ⟨f1, f2, f3⟩ := adj_root hC hL2 hR2 (hl ▸ h.asc) (by rw [htk]; exact hC.refl _) hl2
        rw [e', Res.ok_bind, hu]
        simp only []
        have huk : uk = tk := by rw [← htk, ← f2]
        rw [if_neg (by rw [huk]; simp [hC.refl]), f2, hl, List.find?_append, hfA, Option.none_or, List.find?_cons_of_pos]
        rw [← e2]; simpa using hv
      · rw [if_neg hv, firstKey_spec, e3]
        refine ih (A ++ [b]) B h' hsz (by simp [hl]) ?_ hnz (by simp at hn; omega)
        intro x hx
        rcases List.mem_append.1 hx with hx | hx
        · exact hA x hx
        · simp at hx; rw [hx, ← e2]; exact hv

/-- What is in the tree is what was there and what is put, without what is relinquished and what is handed back. -/
structure OwnBalanced (own : Callbacks) (ks vs : List Nat) (l : SMap) (lg : Ledger) (l' : SMap) : Prop where
  keys : own.keys = true → (l.map Prod.fst ++ ks).Perm (lg.freedKeys ++ lg.givenKeys ++ l'.map Prod.fst)
  values : own.values = true → ((l.map Prod.snd).filter (· ≠ 0) ++ vs).Perm (lg.freedValues ++ lg.givenValues ++ (l'.map Prod.snd).filter (· ≠ 0))
  noKeys : own.keys = false → lg.freedKeys = []
  noValues : own.values = false → lg.freedValues = []

theorem balanced_same (own : Callbacks) (l : SMap) : OwnBalanced own [] [] l {} l := ⟨fun _ => by simp, fun _ => by simp, fun _ => rfl, fun _ => rfl⟩

theorem balanced_trans {own : Callbacks} {ks ks' vs vs' : List Nat} {l l' l'' : SMap} {a b : Ledger} (h : OwnBalanced own ks vs l a l') (h' : OwnBalanced own ks' vs' l' b l'') :
    OwnBalanced own (ks ++ ks') (vs ++ vs') l (a.append b) l'' := by
  refine ⟨fun ho => List.perm_iff_count.2 fun x => ?_, fun ho => List.perm_iff_count.2 fun x => ?_, fun ho => ?_, fun ho => ?_⟩
  · have h1 := List.perm_iff_count.1 (h.keys ho) x
    have h2 := List.perm_iff_count.1 (h'.keys ho) x
    simp only [Ledger.append, List.count_append] at h1 h2 ⊢
    omega
  · have h1 := List.perm_iff_count.1 (h.values ho) x
    have h2 := List.perm_iff_count.1 (h'.values ho) x
    simp only [Ledger.append, List.count_append] at h1 h2 ⊢
    omega
  · show a.freedKeys ++ b.freedKeys = []
    rw [h.noKeys ho, h'.noKeys ho]; rfl
  · show a.freedValues ++ b.freedValues = []
    rw [h.noValues ho, h'.noValues ho]; rfl

/-- One binding is given up, and some are put. -/
theorem balanced_one {own : Callbacks} {ks vs : List Nat} {l l' : SMap} {lg : Ledger} {b : Nat × Nat} {new : SMap} {m : SMap} (hl : l.Perm (b :: m)) (hl' : l'.Perm (new ++ m))
    (hk : own.keys = true → lg.freedKeys ++ lg.givenKeys = [b.1]) (hv : own.values = true → lg.freedValues ++ lg.givenValues = [b.2].filter (· ≠ 0))
    (hk' : own.keys = false → lg.freedKeys = []) (hv' : own.values = false → lg.freedValues = []) (hks : ks = new.map Prod.fst) (hvs : vs = (new.map Prod.snd).filter (· ≠ 0)) :
    OwnBalanced own ks vs l lg l' := by
  refine ⟨fun ho => ?_, fun ho => ?_, hk', hv'⟩
  · rw [hk ho, hks]
    have h1 := hl.map Prod.fst
    have h2 := hl'.map Prod.fst
    refine (h1.append_right _).trans (List.Perm.trans ?_ (h2.symm.append_left _))
    rw [List.map_cons, List.cons_append, List.singleton_append, List.map_append]
    exact List.perm_append_comm.cons _
  · rw [hv ho, hvs]
    have h1 := (hl.map Prod.snd).filter (fun x => decide (x ≠ 0))
    have h2 := (hl'.map Prod.snd).filter (fun x => decide (x ≠ 0))
    refine (h1.append_right _).trans (List.Perm.trans ?_ (h2.symm.append_left _))
    rw [List.map_append, List.filter_append, List.map_cons]
    rw [List.perm_iff_count]
    intro x
    rw [List.filter_cons, List.filter_cons]
    split <;> simp only [List.count_append, List.count_cons, List.filter_nil, List.count_nil] <;> omega

theorem put_key (own : Callbacks) {k : Nat} (hk : k ≠ 0) : (own.keys = true → own.key k = [k]) ∧ (own.keys = false → own.key k = []) := by
  constructor <;> intro h <;> simp [Callbacks.key, h, hk]

theorem put_value (own : Callbacks) (v : Nat) : (own.values = true → own.value v = [v].filter (· ≠ 0)) ∧ (own.values = false → own.value v = []) := by
  constructor <;> intro h
  · by_cases hv : v = 0 <;> simp [Callbacks.value, h, hv]
  · simp [Callbacks.value, h]

theorem find_own {C : Nat → Nat → Int} (hC : IsOrder C) {l : SMap} (hl : Asc C l) {b : Nat × Nat} (hb : b ∈ l) : l.find? (fun x => C x.1 b.1 == 0) = some b := by
  obtain ⟨A, B, rfl⟩ := List.append_of_mem hb
  rw [List.find?_append, List.find?_eq_none.2, Option.none_or, List.find?_cons_of_pos]
  · simp [hC.refl]
  · intro x hx
    have := (List.pairwise_append.1 hl).2.2 x hx b List.mem_cons_self
    simp; omega

/-- The call as a call on a map of bindings. -/
def ownMapOp : OwnOp → SMapOp
  | .put k v => .put k v
  | .get k => .get k
  | .remove k => .remove k
  | .delete k => .remove k
  | .removeValue v => .removeValue v
  | .deleteValue v => .removeValue v
  | .resetIterator => .reset
  | .next => .next

theorem own_step (own : Callbacks) {cmp : Option (Nat → Nat → Int)} (hC : IsOrder (cmpKeys cmp)) {s l} (h : SInv cmp s l) (hsz : l.length < 2 ^ 64) (hnz : ∀ x ∈ l, x.1 ≠ 0) (op : OwnOp) :
    ∃ lg s', exec own cmp s op = .ok (lg, s') ∧ SInv cmp s' (SMap.step (cmpKeys cmp) l (ownMapOp op)).2 ∧ OwnBalanced own (putKeys [op]) (putValues [op]) l lg (SMap.step (cmpKeys cmp) l (ownMapOp op)).2 := by
  have hnode := node_at hC h hsz
  have hwith : ∀ v, nodeWith cmp v (s.nodes + 1) s (firstKey s.root) = .ok (l.find? fun b => b.2 == v) := by
    intro v
    have := node_with hC v (s.nodes + 1) [] l h hsz rfl (fun _ h => nomatch h) hnz (by rw [h.nodes]; omega)
    rwa [firstKey_spec, h.list]
  have hfind : ∀ {p : Nat × Nat → Bool} {b}, l.find? p = some b → b.1 ≠ 0 := fun hf => hnz _ (List.mem_of_find?_eq_some hf)
  cases op with
  | put k v =>
    obtain ⟨s', e, h', -⟩ := addValue_spec hC h hsz k v
    have hp := put_perm (C := cmpKeys cmp) l k v
    have hr := find_remove hC h.asc k
    unfold exec addOwned
    simp only []
    rw [hnode k, Res.ok_bind, e, Res.ok_bind]
    cases hf : l.find? (fun b => cmpKeys cmp b.1 k == 0) with
    | none =>
      rw [hf] at hr
      refine ⟨_, _, rfl, h', ⟨fun _ => ?_, fun _ => ?_, fun _ => rfl, fun _ => rfl⟩⟩
      · rw [hr] at hp
        refine List.Perm.trans ?_ (hp.map Prod.fst).symm
        exact List.perm_append_comm
      · rw [hr] at hp
        refine List.Perm.trans ?_ ((hp.map Prod.snd).filter (fun x => decide (x ≠ 0))).symm
        rw [List.perm_iff_count]
        intro x
        simp only [putValues, List.filterMap_cons, List.filterMap_nil, List.map_cons, List.filter_cons, List.filter_nil]
        split <;> simp only [List.count_append, List.count_cons, List.count_nil] <;> omega
    | some b =>
      rw [hf] at hr
      have hb := hfind hf
      refine ⟨_, _, rfl, h', balanced_one (new := [(k, v)]) hr.2 hp ?_ ?_ (put_key own hb).2 (put_value own b.2).2 rfl rfl⟩
      · intro ho
        show own.key b.1 ++ [] = _
        rw [(put_key own hb).1 ho]; rfl
      · intro ho
        show own.value b.2 ++ [] = _
        rw [(put_value own b.2).1 ho, List.append_nil]
  | get k =>
    obtain ⟨o, e, -, h', -⟩ := getFromSplay_spec hC h hsz k
    exact ⟨_, o.2, by unfold exec; simp only []; rw [e, Res.ok_bind], h', balanced_same own l⟩
  | remove k =>
    obtain ⟨o, e, h1, -, h', -⟩ := removeFromSplay_spec hC h hsz k
    have hr := find_remove hC h.asc k
    unfold exec removeOwned
    simp only []
    rw [hnode k, Res.ok_bind, e, Res.ok_bind]
    cases hf : l.find? (fun b => cmpKeys cmp b.1 k == 0) with
    | none =>
      rw [hf] at hr
      refine ⟨_, _, rfl, h', ?_⟩
      show OwnBalanced own [] [] l {} (SMap.remove (cmpKeys cmp) l k)
      rw [hr]; exact balanced_same own l
    | some b =>
      rw [hf] at hr
      have hb := hfind hf
      have hv : o.1 = b.2 := by rw [h1, SMap.get, hf]; rfl
      refine ⟨_, _, rfl, h', balanced_one (new := []) hr.2 (.refl _) ?_ ?_ (put_key own hb).2 (fun _ => rfl) rfl rfl⟩
      · intro ho
        show own.key b.1 ++ [] = _
        rw [(put_key own hb).1 ho]; rfl
      · intro ho
        show [] ++ (if o.1 = 0 then [] else [o.1]) = _
        rw [hv]
        by_cases h0 : b.2 = 0 <;> simp [h0]
  | delete k =>
    obtain ⟨o, e, h1, -, h', -⟩ := removeFromSplay_spec hC h hsz k
    have hr := find_remove hC h.asc k
    unfold exec deleteOwned
    simp only []
    rw [hnode k, Res.ok_bind, e, Res.ok_bind]
    cases hf : l.find? (fun b => cmpKeys cmp b.1 k == 0) with
    | none =>
      rw [hf] at hr
      refine ⟨_, _, rfl, h', ?_⟩
      show OwnBalanced own [] [] l {} (SMap.remove (cmpKeys cmp) l k)
      rw [hr]; exact balanced_same own l
    | some b =>
      rw [hf] at hr
      have hb := hfind hf
      refine ⟨_, _, rfl, h', balanced_one (new := []) hr.2 (.refl _) ?_ ?_ (put_key own hb).2 (put_value own b.2).2 rfl rfl⟩
      · intro ho
        show own.key b.1 ++ [] = _
        rw [(put_key own hb).1 ho]; rfl
      · intro ho
        show own.value b.2 ++ [] = _
        rw [(put_value own b.2).1 ho, List.append_nil]
  | removeValue v =>
    obtain ⟨o, e, h1, h', -⟩ := removeValue_spec hC h hsz hnz v
    unfold exec removeValueOwned
    simp only []
    rw [hwith v, Res.ok_bind, e, Res.ok_bind]
    cases hf : l.find? (fun b => b.2 == v) with
    | none =>
      refine ⟨_, _, rfl, h', ?_⟩
      show OwnBalanced own [] [] l {} (SMap.step (cmpKeys cmp) l (.removeValue v)).2
      simp only [SMap.step, hf]; exact balanced_same own l
    | some b =>
      have hb := hfind hf
      have hr := find_remove hC h.asc b.1
      have ho1 : o.1 = b.1 := by rw [h1]; simp only [SMap.step, hf]
      have hl : (SMap.step (cmpKeys cmp) l (.removeValue v)).2 = SMap.remove (cmpKeys cmp) l b.1 := by simp only [SMap.step, hf]
      have hfb : l.find? (fun x => cmpKeys cmp x.1 b.1 == 0) = some b := find_own hC h.asc (List.mem_of_find?_eq_some hf)
      rw [hfb] at hr
      refine ⟨_, _, rfl, h', balanced_one (new := []) hr.2 (by rw [show (SMap.step (cmpKeys cmp) l (ownMapOp (.removeValue v))).2 = _ from hl]; exact .refl _) ?_ ?_ (fun _ => rfl) (put_value own b.2).2 rfl rfl⟩
      · intro _
        show [] ++ [o.1] = _
        rw [ho1]; rfl
      · intro ho
        show own.value b.2 ++ [] = _
        rw [(put_value own b.2).1 ho, List.append_nil]
  | deleteValue v =>
    obtain ⟨o, e, h1, h', -⟩ := removeValue_spec hC h hsz hnz v
    unfold exec deleteValueOwned
    simp only []
    rw [hwith v, Res.ok_bind, e, Res.ok_bind]
    cases hf : l.find? (fun b => b.2 == v) with
    | none =>
      refine ⟨_, _, rfl, h', ?_⟩
      show OwnBalanced own [] [] l {} (SMap.step (cmpKeys cmp) l (.removeValue v)).2
      simp only [SMap.step, hf]; exact balanced_same own l
    | some b =>
      have hb := hfind hf
      have hr := find_remove hC h.asc b.1
      have hl : (SMap.step (cmpKeys cmp) l (.removeValue v)).2 = SMap.remove (cmpKeys cmp) l b.1 := by simp only [SMap.step, hf]
      have hfb : l.find? (fun x => cmpKeys cmp x.1 b.1 == 0) = some b := find_own hC h.asc (List.mem_of_find?_eq_some hf)
      rw [hfb] at hr
      refine ⟨_, _, rfl, h', balanced_one (new := []) hr.2 (by rw [show (SMap.step (cmpKeys cmp) l (ownMapOp (.deleteValue v))).2 = _ from hl]; exact .refl _) ?_ ?_ (put_key own hb).2 (put_value own b.2).2 rfl rfl⟩
      · intro ho
        show own.key b.1 ++ [] = _
        rw [(put_key own hb).1 ho]; rfl
      · intro ho
        show own.value b.2 ++ [] = _
        rw [(put_value own b.2).1 ho, List.append_nil]
  | resetIterator => exact ⟨_, _, rfl, ⟨h.list, h.asc, h.nodes, h.cache⟩, balanced_same own l⟩
  | next =>
    obtain ⟨o, e, h'⟩ := nextInSplay_any hC h hsz
    exact ⟨_, o.2, by unfold exec; simp only []; rw [e, Res.ok_bind], h', balanced_same own l⟩

theorem own_run (own : Callbacks) {cmp : Option (Nat → Nat → Int)} (hC : IsOrder (cmpKeys cmp)) (ops : List OwnOp) : ∀ {s l}, SInv cmp s l → l.length + ops.length < 2 ^ 64 → (∀ x ∈ l, x.1 ≠ 0) →
    NoNullKey ops → ∃ lg s' l', run own cmp s ops = .ok (lg, s') ∧ SInv cmp s' l' ∧ l'.length ≤ l.length + ops.length ∧ (∀ x ∈ l', x.1 ≠ 0) ∧ OwnBalanced own (putKeys ops) (putValues ops) l lg l' := by
  induction ops with
  | nil => intro s l h _ hnz _; exact ⟨_, _, l, rfl, h, by simp, hnz, balanced_same own l⟩
  | cons op ops ih =>
    intro s l h hsz hnz hops
    have hsz' : l.length + (ops.length + 1) < 2 ^ 64 := by simpa using hsz
    have hk : putKeys (op :: ops) = putKeys [op] ++ putKeys ops := by
      rw [show op :: ops = [op] ++ ops from rfl]; unfold putKeys; rw [List.filterMap_append]
    have hv : putValues (op :: ops) = putValues [op] ++ putValues ops := by
      rw [show op :: ops = [op] ++ ops from rfl]; unfold putValues; rw [List.filterMap_append, List.filter_append]
    unfold NoNullKey at hops
    rw [hk] at hops
    obtain ⟨lg, s1, e1, h1, b1⟩ := own_step own hC h (by omega) hnz op
    have hlen := step_length (C := cmpKeys cmp) (l := l) (ownMapOp op)
    have hnz1 := step_nonnull (C := cmpKeys cmp) hnz (ownMapOp op) (by
      intro k v e
      cases op <;> simp only [ownMapOp, SMapOp.put.injEq, reduceCtorEq] at e
      rename_i k' v'
      rw [← e.1]
      rintro rfl
      exact hops (by simp [putKeys]))
    obtain ⟨lg2, s2, l2, e2, h2, n2, z2, b2⟩ := ih h1 (by omega) hnz1 (fun hm => hops (List.mem_append.2 (.inr hm)))
    refine ⟨lg.append lg2, s2, l2, ?_, h2, by simp; omega, z2, ?_⟩
    · unfold run; rw [e1, Res.ok_bind, e2, Res.ok_bind]
    · rw [hk, hv]; exact balanced_trans b1 b2

/-- **C155** For every order of the keys, all callbacks and every history: each key (and value) put into a splay tree is, after the history, relinquished, handed back or in the tree, each exactly as
often as it was put; nothing is relinquished without a callback. -/
theorem C155_owned (own : Callbacks) {cmp : Option (Nat → Nat → Int)} (hC : IsOrder (keyOrder cmp)) (ops : List OwnOp) (hops : NoNullKey ops) (hsz : ops.length < 2 ^ 64) :
    ∃ lg s, run own cmp newSplayTree ops = .ok (lg, s) ∧
      (own.keys = true → (putKeys ops).Perm (lg.freedKeys ++ lg.givenKeys ++ s.root.toList.map Prod.fst)) ∧
      (own.values = true → (putValues ops).Perm (lg.freedValues ++ lg.givenValues ++ (s.root.toList.map Prod.snd).filter (· ≠ 0))) ∧
      (own.keys = false → lg.freedKeys = []) ∧ (own.values = false → lg.freedValues = []) := by
  rw [← keyOrder_eq] at hC
  obtain ⟨lg, s, l, e, h, -, -, b⟩ := own_run own hC ops (new_inv cmp) (by simpa using hsz) (by simp) hops
  rw [← h.list] at b
  exact ⟨lg, s, e, fun ho => by simpa using b.keys ho, fun ho => by simpa using b.values ho, b.noKeys, b.noValues⟩

theorem flat_keys {own : Callbacks} (ho : own.keys = true) {l : SMap} (hnz : ∀ x ∈ l, x.1 ≠ 0) : l.flatMap (fun b => own.key b.1) = l.map Prod.fst := by
  induction l with
  | nil => rfl
  | cons b l ih =>
    rw [List.flatMap_cons, (put_key own (hnz b List.mem_cons_self)).1 ho, ih fun x hx => hnz x (List.mem_cons_of_mem _ hx)]; rfl

theorem flat_values {own : Callbacks} (ho : own.values = true) (l : SMap) : l.flatMap (fun b => own.value b.2) = (l.map Prod.snd).filter (· ≠ 0) := by
  induction l with
  | nil => rfl
  | cons b l ih =>
    rw [List.flatMap_cons, (put_value own b.2).1 ho, ih, List.map_cons, ← List.filter_append]; rfl

theorem flat_none {f : Nat × Nat → List Nat} (hf : ∀ b, f b = []) (l : SMap) : l.flatMap f = [] := by
  induction l with
  | nil => rfl
  | cons b l ih => rw [List.flatMap_cons, hf, ih]; rfl

/-- **C155 (destroying)** After every history and for every placement of the nodes in memory: `DestroySplayTree` and `ResetSplayTree` end, read no node that is released, release each node of the
tree exactly once and nothing else, and with what was relinquished before, relinquish or have handed back every key and value exactly as often as it was put. -/
theorem C155_destroyed (own : Callbacks) {cmp : Option (Nat → Nat → Int)} (hC : IsOrder (keyOrder cmp)) (ops : List OwnOp) (hops : NoNullKey ops) (hsz : ops.length < 2 ^ 64) {lg : Ledger} {s : SplayTree}
    (hr : run own cmp newSplayTree ops = .ok (lg, s)) (h : NodeHeap) (t : Placed) (ht : t.tree = s.root) (hi : t.In h) (hn : t.addrs.Nodup) {fuel : Nat} (hf : t.addrs.length < fuel) :
    ∃ h' log, releaseTree own fuel h t.addr = .ok (h', log) ∧ (∀ x, h' x = if x ∈ t.addrs then none else h x) ∧ (goneNodes log).Perm t.addrs ∧
      (own.keys = true → (putKeys ops).Perm (lg.freedKeys ++ lg.givenKeys ++ goneKeys log)) ∧ (own.values = true → (putValues ops).Perm (lg.freedValues ++ lg.givenValues ++ goneValues log)) ∧
      (own.keys = false → goneKeys log = []) ∧ (own.values = false → goneValues log = []) := by
  rw [← keyOrder_eq] at hC
  obtain ⟨lg', s', l, e, hs, -, hnz, b⟩ := own_run own hC ops (new_inv cmp) (by simpa using hsz) (by simp) hops
  rw [hr] at e
  cases e
  obtain ⟨h', log, e, hp, hh⟩ := release_tree own fuel hi hn hf
  obtain ⟨g1, g2, g3⟩ := gone_all own t
  have k1 : (goneKeys log).Perm (l.flatMap fun b => own.key b.1) := by
    rw [← hs.list, ← ht]; exact (hp.filterMap _).trans g1
  have k2 : (goneValues log).Perm (l.flatMap fun b => own.value b.2) := by
    rw [← hs.list, ← ht]; exact (hp.filterMap _).trans g2
  refine ⟨h', log, e, hh, (hp.filterMap _).trans g3, fun ho => ?_, fun ho => ?_, fun ho => ?_, fun ho => ?_⟩
  · rw [flat_keys ho hnz] at k1
    have := b.keys ho
    simp only [List.map_nil, List.nil_append] at this
    exact this.trans (k1.symm.append_left _)
  · rw [flat_values ho] at k2
    have := b.values ho
    simp only [List.map_nil, List.filter_nil, List.nil_append] at this
    exact this.trans (k2.symm.append_left _)
  · rw [flat_none (fun b => by simp [Callbacks.key, ho])] at k1; exact k1.eq_nil
  · rw [flat_none (fun b => by simp [Callbacks.value, ho])] at k2; exact k2.eq_nil

/-- `ResetSplayTree` leaves a new tree. -/
theorem C155_reset : afterReset = newSplayTree := rfl

def exampleOwnOps : List OwnOp := [.put 5 50, .put 3 30, .put 9 0, .put 7 70, .remove 5, .delete 3, .put 11 110, .removeValue 110, .next]

/-- A case: a key is replaced by none, one value and one key are handed back, two bindings remain. -/
example : NoNullKey exampleOwnOps ∧ (run ⟨true, true⟩ none newSplayTree exampleOwnOps).Ok fun r => r.1.freedKeys = [5, 3] ∧ r.1.freedValues = [30, 110] ∧ r.1.givenKeys = [11] ∧ r.1.givenValues = [50] ∧
    r.2.root.toList = [(7, 70), (9, 0)] := by
  constructor
  · unfold NoNullKey; decide
  · exact ⟨_, rfl, by decide +kernel⟩

def exampleHeap : NodeHeap := fun x => if x = 100 then some ⟨7, 70, 0, 200⟩ else if x = 200 then some ⟨9, 0, 0, 0⟩ else none

/-- A placement of two nodes. -/
example : (Placed.node 100 .nil 7 70 (.node 200 .nil 9 0 .nil)).In exampleHeap ∧ (Placed.node 100 .nil 7 70 (.node 200 .nil 9 0 .nil)).addrs.Nodup := by
  constructor
  · simp [Placed.In, exampleHeap, Placed.addr]
  · decide

theorem kept_next (own : Callbacks) {cmp : Option (Nat → Nat → Int)} (hC : IsOrder (cmpKeys cmp)) (ho : own.keys = true) {s l} (h : SInv cmp s l) (hsz : l.length < 2 ^ 64) (hnz : ∀ x ∈ l, x.1 ≠ 0) {op : OwnOp}
    (hop : op.keeps = true) (hnext : s.next = 0 ∨ s.next ∈ l.map Prod.fst) {lg : Ledger} {s' : SplayTree} (he : exec own cmp s op = .ok (lg, s')) (hfree : lg.freedKeys = []) :
    s'.next = 0 ∨ s'.next ∈ (SMap.step (cmpKeys cmp) l (ownMapOp op)).2.map Prod.fst := by
  cases op with
  | put k v =>
    obtain ⟨s1, e, h', hn⟩ := addValue_spec hC h hsz k v
    have hp := put_perm (C := cmpKeys cmp) l k v
    have hr := find_remove hC h.asc k
    unfold exec addOwned at he
    simp only [] at he
    rw [node_at hC h hsz k, Res.ok_bind, e, Res.ok_bind] at he
    cases hf : l.find? (fun b => cmpKeys cmp b.1 k == 0) with
    | none =>
      rw [hf] at hr he
      cases he
      rw [hn]
      refine hnext.imp id fun hm => ?_
      show s.next ∈ (SMap.put (cmpKeys cmp) l k v).map Prod.fst
      rw [(hp.map Prod.fst).mem_iff, hr]
      exact List.mem_cons_of_mem _ hm
    | some b =>
      rw [hf] at he
      cases he
      have hb : b.1 ≠ 0 := hnz b (List.mem_of_find?_eq_some hf)
      have : own.key b.1 = [] := hfree
      rw [(put_key own hb).1 ho] at this
      cases this
  | get k =>
    obtain ⟨o, e, -, h', hn⟩ := getFromSplay_spec hC h hsz k
    unfold exec at he
    simp only [] at he
    rw [e, Res.ok_bind] at he
    cases he
    rw [hn]; exact hnext
  | resetIterator =>
    cases he
    show firstKey s.root = 0 ∨ firstKey s.root ∈ l.map Prod.fst
    rw [firstKey_spec, h.list]
    cases l with
    | nil => exact .inl rfl
    | cons b l => exact .inr List.mem_cons_self
  | next =>
    unfold exec at he
    simp only [] at he
    rcases hnext with h0 | hm
    · rw [nextInSplay_end h0, Res.ok_bind] at he
      cases he
      exact .inl h0
    · obtain ⟨b, hb, e⟩ := List.mem_map.1 hm
      obtain ⟨A, B, hl⟩ := List.append_of_mem hb
      obtain ⟨o, e', h1, h2, h3⟩ := nextInSplay_spec hC h hsz hl e.symm (hnz b hb)
      rw [e', Res.ok_bind] at he
      cases he
      rw [h3]
      cases B with
      | nil => exact .inl rfl
      | cons c B => exact .inr (by show c.1 ∈ l.map Prod.fst; rw [hl]; simp)
  | _ => cases hop

theorem kept_run (own : Callbacks) {cmp : Option (Nat → Nat → Int)} (hC : IsOrder (cmpKeys cmp)) (ho : own.keys = true) (ops : List OwnOp) : ∀ {s l}, SInv cmp s l → l.length + ops.length < 2 ^ 64 →
    (∀ x ∈ l, x.1 ≠ 0) → NoNullKey ops → (∀ op ∈ ops, op.keeps = true) → (s.next = 0 ∨ s.next ∈ l.map Prod.fst) → ∀ {lg s'}, run own cmp s ops = .ok (lg, s') → lg.freedKeys = [] →
    s'.next = 0 ∨ s'.next ∈ s'.root.toList.map Prod.fst := by
  induction ops with
  | nil => intro s l h _ _ _ _ hn lg s' e _; cases e; rw [h.list]; exact hn
  | cons op ops ih =>
    intro s l h hsz hnz hops hkeep hn lg s' e hfree
    have hsz' : l.length + (ops.length + 1) < 2 ^ 64 := by simpa using hsz
    have hk : putKeys (op :: ops) = putKeys [op] ++ putKeys ops := by
      rw [show op :: ops = [op] ++ ops from rfl]; unfold putKeys; rw [List.filterMap_append]
    unfold NoNullKey at hops
    rw [hk] at hops
    obtain ⟨lg1, s1, e1, h1, -⟩ := own_step own hC h (by omega) hnz op
    have hlen := step_length (C := cmpKeys cmp) (l := l) (ownMapOp op)
    have hnz1 := step_nonnull (C := cmpKeys cmp) hnz (ownMapOp op) (by
      intro k v e
      cases op <;> simp only [ownMapOp, SMapOp.put.injEq, reduceCtorEq] at e
      rename_i k' v'
      rw [← e.1]
      rintro rfl
      exact hops (by simp [putKeys]))
    have hops2 : NoNullKey ops := fun hm => hops (List.mem_append.2 (.inr hm))
    obtain ⟨lg2, s2, l2, e2, -⟩ := own_run own hC ops h1 (by omega) hnz1 hops2
    unfold run at e
    rw [e1, Res.ok_bind, e2, Res.ok_bind] at e
    cases e
    have hf : lg1.freedKeys ++ lg2.freedKeys = [] := hfree
    obtain ⟨f1, f2⟩ := List.append_eq_nil_iff.1 hf
    exact ih h1 (by omega) hnz1 hops2 (fun o ho => hkeep o (List.mem_cons_of_mem _ ho)) (kept_next own hC ho h (by omega) hnz (hkeep op List.mem_cons_self) hn e1 f1) e2 f2

/-- **C156** If each key is put once, the keys in the tree are none of those that are relinquished or handed back, and no key is relinquished twice. -/
theorem C156_partial (own : Callbacks) (ho : own.keys = true) {cmp : Option (Nat → Nat → Int)} (hC : IsOrder (keyOrder cmp)) (ops : List OwnOp) (hops : NoNullKey ops) (hsz : ops.length < 2 ^ 64)
    (hd : (putKeys ops).Nodup) {lg : Ledger} {s : SplayTree} (hr : run own cmp newSplayTree ops = .ok (lg, s)) :
    lg.freedKeys.Nodup ∧ ∀ b ∈ s.root.toList, b.1 ∉ lg.freedKeys ∧ b.1 ∉ lg.givenKeys := by
  obtain ⟨lg', s', e, hk, -⟩ := C155_owned own hC ops hops hsz
  rw [hr] at e
  cases e
  have hd' := ((hk ho).nodup_iff).1 hd
  rw [List.nodup_append] at hd'
  obtain ⟨h1, -, h3⟩ := hd'
  have hf := (List.nodup_append.1 h1).1
  refine ⟨hf, fun b hb => ⟨fun hm => ?_, fun hm => ?_⟩⟩
  · exact h3 b.1 (List.mem_append.2 (.inl hm)) b.1 (List.mem_map.2 ⟨b, hb, rfl⟩) rfl
  · exact h3 b.1 (List.mem_append.2 (.inr hm)) b.1 (List.mem_map.2 ⟨b, hb, rfl⟩) rfl

/-- **C156 (iterator)** After every history, as long as the calls since the iterator was reset remove and replace nothing, the key at which the iterator goes on is a key in the tree, or NULL. -/
theorem C156_iterator_partial (own : Callbacks) (ho : own.keys = true) {cmp : Option (Nat → Nat → Int)} (hC : IsOrder (keyOrder cmp)) (ops later : List OwnOp) (hops : NoNullKey ops) (hlater : NoNullKey later)
    (hsz : ops.length + later.length < 2 ^ 64) (hkeep : ∀ op ∈ later, op.keeps = true) {lg lg' : Ledger} {s s' : SplayTree} (hr : run own cmp newSplayTree ops = .ok (lg, s))
    (hr' : run own cmp (resetSplay s) later = .ok (lg', s')) (hfree : lg'.freedKeys = []) : s'.next = 0 ∨ s'.next ∈ s'.root.toList.map Prod.fst := by
  rw [← keyOrder_eq] at hC
  obtain ⟨lg1, s1, l, e, h, hl, hnz, -⟩ := own_run own hC ops (new_inv cmp) (by simp; omega) (by simp) hops
  rw [hr] at e
  cases e
  have hl' : l.length ≤ ops.length := by simpa using hl
  have hr0 : SInv cmp (resetSplay s) l := ⟨h.list, h.asc, h.nodes, h.cache⟩
  refine kept_run own hC ho later hr0 (by omega) hnz hlater hkeep ?_ hr' hfree
  show firstKey s.root = 0 ∨ firstKey s.root ∈ l.map Prod.fst
  rw [firstKey_spec, h.list]
  cases l with
  | nil => exact .inl rfl
  | cons b l => exact .inr List.mem_cons_self

/-- **C156** (violated) After every history: once the iterator is reset, deleting the smallest key (here `b.1`) relinquishes that key and leaves the iterator on it; if another key is in the tree, the
next call of `GetNextKeyInSplayTree` hands the relinquished key to the comparison. -/
theorem C156_iterator_violated (own : Callbacks) (ho : own.keys = true) {cmp : Option (Nat → Nat → Int)} (hC : IsOrder (keyOrder cmp)) (ops : List OwnOp) (hops : NoNullKey ops) (hsz : ops.length < 2 ^ 64)
    {lg : Ledger} {s : SplayTree} (hr : run own cmp newSplayTree ops = .ok (lg, s)) {b : Nat × Nat} {rest : List (Nat × Nat)} (hb : s.root.toList = b :: rest) :
    ∃ lg' s', run own cmp s [.resetIterator, .delete b.1] = .ok (lg', s') ∧ lg'.freedKeys = [b.1] ∧ s'.next = b.1 ∧ s'.root.toList = rest ∧
      (rest ≠ [] → nextInSplay cmp s' = (do
        let s2 ← splaySplayTree cmp s' b.1
        match s2.root with
        | .nil => .ub
        | .node _ k v r => .ok (some (k, v), { s2 with next := firstKey r }))) := by
  rw [← keyOrder_eq] at hC
  obtain ⟨lg1, s1, l, e, h, hl, hnz, -⟩ := own_run own hC ops (new_inv cmp) (by simp; omega) (by simp) hops
  rw [hr] at e
  cases e
  have hl' : l.length ≤ ops.length := by simpa using hl
  have hlb : l = b :: rest := by rw [← h.list, hb]
  have hr0 : SInv cmp (resetSplay s) l := ⟨h.list, h.asc, h.nodes, h.cache⟩
  have hb0 := hnz b (by rw [hlb]; exact List.mem_cons_self)
  obtain ⟨o, e, h1, -, h', hnx⟩ := removeFromSplay_spec hC hr0 (by omega) b.1
  have hfb : l.find? (fun x => cmpKeys cmp x.1 b.1 == 0) = some b := find_own hC h.asc (by rw [hlb]; exact List.mem_cons_self)
  have hrem := find_remove hC h.asc b.1
  rw [hfb] at hrem
  have hrest : SMap.remove (cmpKeys cmp) l b.1 = rest := by
    rw [hlb]
    unfold SMap.remove
    rw [List.filter_cons, if_neg (by simp [hC.refl]), List.filter_eq_self]
    intro x hx
    have := hC.gt_trans (a := b.1) (key := b.1) (x := x.1) (by rw [hC.refl]; omega) ((List.pairwise_cons.1 (hlb ▸ h.asc)).1 x hx)
    simp; omega
  have hnext : o.2.2.next = b.1 := by
    rw [hnx]
    show firstKey s.root = _
    rw [firstKey_spec, hb]; rfl
  refine ⟨{ freedKeys := own.key b.1, freedValues := own.value b.2 }, o.2.2, ?_, ?_, hnext, ?_, ?_⟩
  · unfold run run run exec
    simp only [Res.ok_bind]
    unfold deleteOwned
    rw [node_at hC hr0 (by omega), hfb, e]
    simp only [Res.ok_bind]
    simp [Ledger.append]
  · exact (put_key own hb0).1 ho
  · rw [h'.list, hrest]
  · intro hne
    unfold nextInSplay
    cases hroot : o.2.2.root with
    | nil =>
      have := h'.list
      rw [hroot, hrest] at this
      exact absurd this.symm hne
    | node =>
      simp only []
      rw [hnext, if_neg hb0]
      refine congrArg (Bind.bind _) (funext fun s2 => ?_)
      cases s2.root <;> rfl

/-- A case: two keys. -/
example : (run ⟨true, true⟩ none newSplayTree [.put 1 10, .put 2 20]).Ok fun r => r.2.root.toList = [(1, 10), (2, 20)] := ⟨_, rfl, by decide +kernel⟩

/-- **C156** (violated) Putting a key pointer that is already in the tree, to change its value, relinquishes the pointer, which stays in the tree as the key: the next comparison reads it, and
destroying the tree relinquishes it again. -/
theorem C156_same_key_violated (own : Callbacks) (ho : own.keys = true) {cmp : Option (Nat → Nat → Int)} (hC : IsOrder (keyOrder cmp)) {k : Nat} (hk : k ≠ 0) (v w : Nat) :
    ∃ lg s, run own cmp newSplayTree [.put k v, .put k w] = .ok (lg, s) ∧ lg.freedKeys = [k] ∧ s.root.toList = [(k, w)] ∧
      ∀ (h : NodeHeap) (t : Placed), t.tree = s.root → t.In h → t.addrs.Nodup → ∃ h' log, releaseTree own (t.addrs.length + 1) h t.addr = .ok (h', log) ∧ (lg.freedKeys ++ goneKeys log) = [k, k] := by
  have hC' := hC
  rw [← keyOrder_eq] at hC
  have hops : NoNullKey [.put k v, .put k w] := by simp [NoNullKey, putKeys]; omega
  obtain ⟨s1, e1, h1, -⟩ := addValue_spec hC (new_inv cmp) (by decide) k v
  obtain ⟨s2, e2, h2, -⟩ := addValue_spec hC h1 (by simp [SMap.put]) k w
  have hl1 : SMap.put (cmpKeys cmp) [] k v = [(k, v)] := rfl
  have hl2 : SMap.put (cmpKeys cmp) [(k, v)] k w = [(k, w)] := by simp [SMap.put, hC.refl]
  have hfind : ([(k, v)] : SMap).find? (fun b => cmpKeys cmp b.1 k == 0) = some (k, v) := by simp [hC.refl]
  have hrun : run own cmp newSplayTree [.put k v, .put k w] = .ok ({ freedKeys := own.key k, freedValues := own.value v }, s2) := by
    unfold run run run exec addOwned
    simp only []
    rw [node_at hC (new_inv cmp) (by decide), e1]
    simp only [Res.ok_bind, List.find?_nil]
    rw [node_at hC h1 (by simp [SMap.put]), e2, hl1, hfind]
    simp only [Res.ok_bind]
    simp [Ledger.append]
  have hfree : own.key k = [k] := (put_key own hk).1 ho
  have hlist : s2.root.toList = [(k, w)] := by rw [h2.list, hl1, hl2]
  refine ⟨_, s2, hrun, hfree, hlist, fun h t ht hi hn => ?_⟩
  obtain ⟨h', log, e, hp, hh⟩ := release_tree own (t.addrs.length + 1) hi hn (by omega)
  have g := (hp.filterMap _).trans (gone_all own t).1
  rw [ht, hlist] at g
  refine ⟨h', log, e, ?_⟩
  have g' : (goneKeys log).Perm [k] := by
    have e : ([(k, w)] : SMap).flatMap (fun b => own.key b.1) = [k] := by simp [hfree]
    rw [← e]; exact g
  rw [List.perm_singleton.1 g']
  show own.key k ++ [k] = _
  rw [hfree]; rfl

end Wizard.Props

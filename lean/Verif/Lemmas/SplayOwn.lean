import Verif.Spec.SplayOwn
import Verif.Lemmas.SplayTree
/-! Lemmas on releasing the nodes of a splay tree. -/
namespace Wizard.OwnP
open Wizard Wizard.Spec Wizard.Spec.Own

/-- A list of trees, linked by the keys of their roots. -/
def headAddr : List Placed → Nat
  | [] => 0
  | t :: _ => t.addr

def Chain (h : NodeHeap) : List Placed → Prop
  | [] => True
  | .nil :: _ => False
  | .node a l _ _ r :: ts => a ≠ 0 ∧ (∃ v, h a = some ⟨headAddr ts, v, l.addr, r.addr⟩) ∧ l.In h ∧ r.In h ∧ Chain h ts

def allAddrs (ts : List Placed) : List Nat := ts.flatMap Placed.addrs

/-- The key and the value of the root. -/
def rootGone (own : Callbacks) : Placed → List Gone
  | .nil => []
  | .node _ _ k v _ => (own.value v).map .value ++ (own.key k).map .key

/-- What is left to give up when the key and the value of the root are gone. -/
def underGone (own : Callbacks) : Placed → List Gone
  | .nil => []
  | .node a l _ _ r => rootGone own l ++ rootGone own r ++ [.node a] ++ underGone own l ++ underGone own r

def allUnder (own : Callbacks) (ts : List Placed) : List Gone := ts.flatMap (underGone own)

theorem in_frame {h h' : NodeHeap} : ∀ {t : Placed}, (∀ a ∈ t.addrs, h' a = h a) → t.In h → t.In h'
  | .nil, _, _ => trivial
  | .node a l k v r, hf, hi =>
    ⟨hi.1, (hf a List.mem_cons_self).trans hi.2.1, in_frame (fun x hx => hf x (List.mem_cons_of_mem _ (List.mem_append_left _ hx))) hi.2.2.1,
      in_frame (fun x hx => hf x (List.mem_cons_of_mem _ (List.mem_append_right _ hx))) hi.2.2.2⟩

theorem chain_frame {h h' : NodeHeap} : ∀ {ts : List Placed}, (∀ a ∈ allAddrs ts, h' a = h a) → Chain h ts → Chain h' ts
  | [], _, _ => trivial
  | .nil :: _, _, hc => hc.elim
  | .node a l k v r :: ts, hf, hc => by
    obtain ⟨h1, ⟨w, h2⟩, h3, h4, h5⟩ := hc
    have hm : ∀ x, x ∈ a :: (l.addrs ++ r.addrs) → h' x = h x := fun x hx => hf x (List.mem_append_left _ hx)
    refine ⟨h1, ⟨w, (hm a List.mem_cons_self).trans h2⟩, in_frame (fun x hx => hm x ?_) h3, in_frame (fun x hx => hm x ?_) h4, chain_frame (fun x hx => hf x (List.mem_append_right _ hx)) h5⟩
    · exact List.mem_cons_of_mem _ (List.mem_append_left _ hx)
    · exact List.mem_cons_of_mem _ (List.mem_append_right _ hx)

/-- A child in front of the pending nodes, unless it is NULL. -/
def pushKid (t : Placed) (ps : List Placed) : List Placed :=
  match t with
  | .nil => ps
  | t => t :: ps

theorem pushKid_addrs (t : Placed) (ps : List Placed) : allAddrs (pushKid t ps) = t.addrs ++ allAddrs ps := by cases t <;> rfl
theorem pushKid_under (own : Callbacks) (t : Placed) (ps : List Placed) : allUnder own (pushKid t ps) = underGone own t ++ allUnder own ps := by cases t <;> rfl

/-- A child is made pending. -/
theorem release_child (own : Callbacks) {h : NodeHeap} {t : Placed} {ps : List Placed} (hi : t.In h) (hp : Chain h ps) (hd : ∀ a ∈ t.addrs, a ∉ allAddrs ps) (hn : t.addrs.Nodup) :
    ∃ h', releaseChild own h t.addr (headAddr ps) = .ok (h', headAddr (pushKid t ps), rootGone own t) ∧ Chain h' (pushKid t ps) ∧ ∀ a, a ≠ t.addr ∨ t = .nil → h' a = h a := by
  cases t with
  | nil => exact ⟨h, rfl, hp, fun _ _ => rfl⟩
  | node a l k v r =>
    obtain ⟨h1, h2, h3, h4⟩ := hi
    have hf : ∀ (c : Option NodeCell) x, x ≠ a → (h.set a c) x = h x := fun c x hx => by unfold NodeHeap.set; rw [if_neg hx]
    rw [show (Placed.node a l k v r).addrs = a :: (l.addrs ++ r.addrs) from rfl, List.nodup_cons, List.mem_append, not_or] at hn
    refine ⟨h.set a (some ⟨headAddr ps, if own.values ∧ v ≠ 0 then 0 else v, l.addr, r.addr⟩), by
      show releaseChild own h a (headAddr ps) = _
      unfold releaseChild
      rw [if_neg h1, h2]
      rfl, ⟨h1, ⟨_, by unfold NodeHeap.set; rw [if_pos rfl]⟩, in_frame (fun x hx => hf _ x fun e => hn.1.1 (e ▸ hx)) h3, in_frame (fun x hx => hf _ x fun e => hn.1.2 (e ▸ hx)) h4,
        chain_frame (fun x hx => hf _ x fun e => hd a List.mem_cons_self (e ▸ hx)) hp⟩, ?_⟩
    intro x hx
    rcases hx with hx | hx
    · exact hf _ x hx
    · cases hx

theorem addr_mem {t : Placed} (h : t ≠ .nil) : t.addr ∈ t.addrs := by
  cases t with
  | nil => exact absurd rfl h
  | node => exact List.mem_cons_self

theorem addr_ne {t : Placed} {x : Nat} (h : x ∉ t.addrs) : x ≠ t.addr ∨ t = .nil := by
  by_cases ht : t = .nil
  · exact .inr ht
  · exact .inl fun e => h (e ▸ addr_mem ht)

/-- One active node is released. -/
theorem release_one (own : Callbacks) {h : NodeHeap} {a : Nat} {l r : Placed} {k v : Nat} {ts ps : List Placed} (hc : Chain h (.node a l k v r :: ts)) (hp : Chain h ps)
    (hn : (allAddrs (.node a l k v r :: ts) ++ allAddrs ps).Nodup) :
    ∃ h', releaseOne own h a (headAddr ps) = .ok (h', headAddr ts, headAddr (pushKid r (pushKid l ps)), rootGone own l ++ rootGone own r ++ [.node a]) ∧ Chain h' ts ∧ Chain h' (pushKid r (pushKid l ps)) ∧
      (∀ x, x ∉ allAddrs (.node a l k v r :: ts) ++ allAddrs ps → h' x = h x) ∧ h' a = none := by
  obtain ⟨h1, ⟨w, h2⟩, h3, h4, h5⟩ := hc
  have hall : allAddrs (.node a l k v r :: ts) ++ allAddrs ps = a :: (l.addrs ++ (r.addrs ++ (allAddrs ts ++ allAddrs ps))) := by
    show (a :: (l.addrs ++ r.addrs) ++ allAddrs ts) ++ allAddrs ps = _
    simp
  rw [hall] at hn ⊢
  rw [List.nodup_cons] at hn
  obtain ⟨ha, hn⟩ := hn
  simp only [List.mem_append, not_or] at ha
  obtain ⟨nl, hn, dl⟩ := List.nodup_append.1 hn
  obtain ⟨nr, hn, dr⟩ := List.nodup_append.1 hn
  obtain ⟨nt, np, dt⟩ := List.nodup_append.1 hn
  obtain ⟨g1, e1, c1, f1⟩ := release_child own h3 hp (fun x hx hx' => dl x hx x (List.mem_append_right _ (List.mem_append_right _ hx')) rfl) nl
  have fl : ∀ x, x ∉ l.addrs → g1 x = h x := fun x hx => f1 x (addr_ne hx)
  have h4' : r.In g1 := in_frame (fun x hx => fl x fun hx' => dl x hx' x (List.mem_append_left _ hx) rfl) h4
  obtain ⟨g2, e2, c2, f2⟩ := release_child own h4' c1 (fun x hx hx' => by
    rw [pushKid_addrs] at hx'
    rcases List.mem_append.1 hx' with hx' | hx'
    · exact dl x hx' x (List.mem_append_left _ hx) rfl
    · exact dr x hx x (List.mem_append_right _ hx') rfl) nr
  have fr : ∀ x, x ∉ r.addrs → g2 x = g1 x := fun x hx => f2 x (addr_ne hx)
  have hs : ∀ x, x ≠ a → (g2.set a none) x = g2 x := fun x hx => by unfold NodeHeap.set; rw [if_neg hx]
  refine ⟨g2.set a none, ?_, chain_frame (fun x hx => ?_) h5, chain_frame (fun x hx => ?_) c2, ?_, by unfold NodeHeap.set; rw [if_pos rfl]⟩
  · unfold releaseOne cellAt
    rw [h2, Res.ok_bind]
    simp only []
    rw [e1, Res.ok_bind]
    simp only []
    rw [fl a ha.1, h2, Res.ok_bind]
    simp only []
    rw [e2, Res.ok_bind]
    simp only []
    rw [fr a ha.2.1, fl a ha.1, h2, Res.ok_bind]
  · rw [hs x (fun e => ha.2.2.1 (e ▸ hx)), fr x (fun hx' => dr x hx' x (List.mem_append_left _ hx) rfl), fl x (fun hx' => dl x hx' x (List.mem_append_right _ (List.mem_append_left _ hx)) rfl)]
  · rw [pushKid_addrs, pushKid_addrs] at hx
    refine hs x fun e => ?_
    subst e
    rcases List.mem_append.1 hx with hx | hx
    · exact ha.2.1 hx
    · rcases List.mem_append.1 hx with hx | hx
      · exact ha.1 hx
      · exact ha.2.2.2 hx
  · intro x hx
    simp only [List.mem_cons, List.mem_append, not_or] at hx
    rw [hs x hx.1, fr x hx.2.2.1, fl x hx.2.1]

/-- The active nodes are released; their children are pending. -/
theorem release_active (own : Callbacks) : ∀ (ts : List Placed) (fuel : Nat) (h : NodeHeap) (ps : List Placed), ts.length < fuel → Chain h ts → Chain h ps → (allAddrs ts ++ allAddrs ps).Nodup →
    ∃ h' qs log, releaseActive own fuel h (headAddr ts) (headAddr ps) = .ok (h', headAddr qs, log) ∧ Chain h' qs ∧ (log ++ allUnder own qs).Perm (allUnder own ts ++ allUnder own ps) ∧
      (∃ gone, (gone ++ allAddrs qs).Perm (allAddrs ts ++ allAddrs ps) ∧ gone.length = ts.length ∧ (∀ a ∈ gone, h' a = none)) ∧ ∀ x, x ∉ allAddrs ts ++ allAddrs ps → h' x = h x := by
  intro ts
  induction ts with
  | nil =>
    intro fuel h ps hl hc hp hn
    cases fuel with
    | zero => cases hl
    | succ fuel => exact ⟨h, ps, [], rfl, hp, .refl _, ⟨[], .refl _, rfl, fun _ h => nomatch h⟩, fun _ _ => rfl⟩
  | cons t ts ih =>
    intro fuel h ps hl hc hp hn
    cases t with
    | nil => exact hc.elim
    | node a l k v r =>
      cases fuel with
      | zero => cases hl
      | succ fuel =>
        obtain ⟨h1, e1, c1, c2, f1, fa⟩ := release_one own hc hp hn
        have hperm : (a :: (allAddrs ts ++ allAddrs (pushKid r (pushKid l ps)))).Perm (allAddrs (.node a l k v r :: ts) ++ allAddrs ps) := by
          rw [pushKid_addrs, pushKid_addrs]
          show (a :: (allAddrs ts ++ (r.addrs ++ (l.addrs ++ allAddrs ps)))).Perm ((a :: (l.addrs ++ r.addrs) ++ allAddrs ts) ++ allAddrs ps)
          rw [List.cons_append, List.cons_append, List.perm_cons]
          rw [List.perm_iff_count]
          intro x
          simp only [List.count_append]
          omega
        have hn' := hperm.nodup_iff.2 hn
        rw [List.nodup_cons] at hn'
        obtain ⟨h2, qs, log, e2, c3, p2, ⟨gone, g1, g2, g3⟩, f2⟩ := ih fuel h1 (pushKid r (pushKid l ps)) (by simp at hl; omega) c1 c2 hn'.2
        refine ⟨h2, qs, rootGone own l ++ rootGone own r ++ [.node a] ++ log, ?_, c3, ?_, ⟨a :: gone, ?_, by simp [g2], ?_⟩, ?_⟩
        · show releaseActive own (fuel + 1) h a (headAddr ps) = _
          unfold releaseActive
          rw [if_neg hc.1, e1, Res.ok_bind]
          simp only []
          rw [e2, Res.ok_bind]
        · rw [List.append_assoc]
          refine (List.Perm.append_left _ p2).trans ?_
          rw [pushKid_under, pushKid_under]
          show List.Perm _ ((rootGone own l ++ rootGone own r ++ [.node a] ++ underGone own l ++ underGone own r ++ allUnder own ts) ++ allUnder own ps)
          rw [List.perm_iff_count]
          intro x
          simp only [List.count_append]
          omega
        · exact (List.Perm.cons a g1).trans hperm
        · intro x hx
          rcases List.mem_cons.1 hx with rfl | hx
          · rw [f2 x hn'.1, fa]
          · exact g3 x hx
        · intro x hx
          have : x ∉ a :: (allAddrs ts ++ allAddrs (pushKid r (pushKid l ps))) := fun hx' => hx (hperm.mem_iff.1 hx')
          rw [f2 x (fun hx' => this (List.mem_cons_of_mem _ hx')), f1 x hx]

theorem chain_length {h : NodeHeap} : ∀ {ts : List Placed}, Chain h ts → ts.length ≤ (allAddrs ts).length
  | [], _ => Nat.le_refl _
  | .nil :: _, hc => hc.elim
  | .node a l k v r :: ts, hc => by
    have := chain_length hc.2.2.2.2
    show ts.length + 1 ≤ ((a :: (l.addrs ++ r.addrs)) ++ allAddrs ts).length
    simp; omega

/-- The pending nodes are released. -/
theorem release_pending (own : Callbacks) : ∀ (fuel : Nat) (ps : List Placed) (h : NodeHeap), (allAddrs ps).length < fuel → Chain h ps → (allAddrs ps).Nodup →
    ∃ h' log, releasePending own fuel h (headAddr ps) = .ok (h', log) ∧ log.Perm (allUnder own ps) ∧ (∀ a ∈ allAddrs ps, h' a = none) ∧ ∀ x, x ∉ allAddrs ps → h' x = h x := by
  intro fuel
  induction fuel with
  | zero => intro ps h hl; cases hl
  | succ fuel ih =>
    intro ps h hl hc hn
    cases ps with
    | nil => exact ⟨h, [], rfl, .refl _, fun _ h => (List.not_mem_nil h).elim, fun _ _ => rfl⟩
    | cons t ts =>
      cases t with
      | nil => exact hc.elim
      | node a l k v r =>
        have hcl := chain_length hc
        obtain ⟨h1, qs, log, e1, c1, p1, ⟨gone, g1, g2, g3⟩, f1⟩ := release_active own (.node a l k v r :: ts) (fuel + 1) h [] (by omega) hc trivial (by simpa [allAddrs] using hn)
        have g1 : (gone ++ allAddrs qs).Perm (allAddrs (.node a l k v r :: ts)) := by simpa [allAddrs] using g1
        have hlen := g1.length_eq
        rw [List.length_append, g2, List.length_cons] at hlen
        have hn1 := g1.nodup_iff.2 hn
        obtain ⟨_, hq, hd⟩ := List.nodup_append.1 hn1
        obtain ⟨h2, log2, e2, p2, d2, f2⟩ := ih qs h1 (by omega) c1 hq
        refine ⟨h2, log ++ log2, ?_, ?_, ?_, ?_⟩
        · show releasePending own (fuel + 1) h a = _
          unfold releasePending
          rw [if_neg hc.1, show releaseActive own (fuel + 1) h a 0 = _ from e1, Res.ok_bind]
          simp only []
          rw [e2, Res.ok_bind]
        · refine (List.Perm.append_left _ p2).trans (p1.trans ?_)
          simp [allUnder]
        · intro x hx
          rcases List.mem_append.1 (g1.mem_iff.2 hx) with hx | hx
          · rw [f2 x fun hx' => hd x hx x hx' rfl]; exact g3 x hx
          · exact d2 x hx
        · intro x hx
          rw [f2 x fun hx' => hx (g1.mem_iff.1 (List.mem_append_right _ hx')), f1 x (by simpa [allAddrs] using hx)]

/-- A tree is released. -/
theorem release_tree (own : Callbacks) (fuel : Nat) {h : NodeHeap} {t : Placed} (hi : t.In h) (hn : t.addrs.Nodup) (hf : t.addrs.length < fuel) :
    ∃ h' log, releaseTree own fuel h t.addr = .ok (h', log) ∧ log.Perm (rootGone own t ++ underGone own t) ∧ ∀ x, h' x = if x ∈ t.addrs then none else h x := by
  cases t with
  | nil => exact ⟨h, [], rfl, .refl _, fun x => by rw [if_neg]; exact List.not_mem_nil⟩
  | node a l k v r =>
    obtain ⟨h1, h2, h3, h4⟩ := hi
    have hfr : ∀ (c : Option NodeCell) x, x ≠ a → (h.set a c) x = h x := fun c x hx => by unfold NodeHeap.set; rw [if_neg hx]
    have hn' := hn
    rw [show (Placed.node a l k v r).addrs = a :: (l.addrs ++ r.addrs) from rfl, List.nodup_cons, List.mem_append, not_or] at hn'
    have hall : allAddrs [.node a l k v r] = (Placed.node a l k v r).addrs := by simp [allAddrs]
    obtain ⟨g, log, e, p, d, f⟩ := release_pending own fuel [.node a l k v r] (h.set a (some ⟨0, if own.values ∧ v ≠ 0 then 0 else v, l.addr, r.addr⟩)) (by rw [hall]; exact hf)
      ⟨h1, ⟨_, by unfold NodeHeap.set; rw [if_pos rfl]; rfl⟩, in_frame (fun x hx => hfr _ x fun e => hn'.1.1 (e ▸ hx)) h3, in_frame (fun x hx => hfr _ x fun e => hn'.1.2 (e ▸ hx)) h4, trivial⟩
      (by rw [hall]; exact hn)
    rw [hall] at d f
    refine ⟨g, _, ?_, List.Perm.append_left _ (p.trans (by simp [allUnder])), ?_⟩
    · show releaseTree own fuel h a = _
      unfold releaseTree
      rw [if_neg h1, h2]
      simp only []
      rw [show releasePending own fuel _ a = _ from e, Res.ok_bind]
      rfl
    · intro x
      by_cases hx : x ∈ (Placed.node a l k v r).addrs
      · rw [if_pos hx, d x hx]
      · rw [if_neg hx, f x hx, hfr _ x fun e => hx (e ▸ List.mem_cons_self)]

/-- What is given up: the keys and values of the tree, and its nodes. -/
theorem gone_all (own : Callbacks) : ∀ t : Placed, (goneKeys (rootGone own t ++ underGone own t)).Perm (t.tree.toList.flatMap fun b => own.key b.1) ∧
    (goneValues (rootGone own t ++ underGone own t)).Perm (t.tree.toList.flatMap fun b => own.value b.2) ∧ (goneNodes (rootGone own t ++ underGone own t)).Perm t.addrs := by
  intro t
  induction t with
  | nil => exact ⟨.refl _, .refl _, .refl _⟩
  | node a l k v r ihl ihr =>
    have ka : ∀ x y, goneKeys (x ++ y) = goneKeys x ++ goneKeys y := fun x y => List.filterMap_append
    have va : ∀ x y, goneValues (x ++ y) = goneValues x ++ goneValues y := fun x y => List.filterMap_append
    have na : ∀ x y, goneNodes (x ++ y) = goneNodes x ++ goneNodes y := fun x y => List.filterMap_append
    have kr : goneKeys (rootGone own (.node a l k v r)) = own.key k := by
      unfold rootGone; rw [ka]; unfold goneKeys; rw [List.filterMap_map, List.filterMap_map]; simp [Function.comp_def]
    have vr : goneValues (rootGone own (.node a l k v r)) = own.value v := by
      unfold rootGone; rw [va]; unfold goneValues; rw [List.filterMap_map, List.filterMap_map]; simp [Function.comp_def]
    have nr : goneNodes (rootGone own (.node a l k v r)) = [] := by
      unfold rootGone; rw [na]; unfold goneNodes; rw [List.filterMap_map, List.filterMap_map]; simp [Function.comp_def]
    rw [ka, va, na] at ihl ihr
    simp only [List.perm_iff_count, List.count_append] at ihl ihr
    rw [ka, va, na, kr, vr, nr]
    refine ⟨List.perm_iff_count.2 fun x => ?_, List.perm_iff_count.2 fun x => ?_, List.perm_iff_count.2 fun x => ?_⟩
    · have h1 := ihl.1 x; have h2 := ihr.1 x
      simp only [underGone, ka, List.count_append, Placed.tree, STree.toList, List.flatMap_append, List.flatMap_cons, show goneKeys [Gone.node a] = [] from rfl, List.count_nil] at h1 h2 ⊢
      omega
    · have h1 := ihl.2.1 x; have h2 := ihr.2.1 x
      simp only [underGone, va, List.count_append, Placed.tree, STree.toList, List.flatMap_append, List.flatMap_cons, show goneValues [Gone.node a] = [] from rfl, List.count_nil] at h1 h2 ⊢
      omega
    · have h1 := ihl.2.2 x; have h2 := ihr.2.2 x
      simp only [underGone, na, List.count_append, Placed.addrs, List.count_cons, show goneNodes [Gone.node a] = [a] from rfl, List.count_nil] at h1 h2 ⊢
      omega

end Wizard.OwnP

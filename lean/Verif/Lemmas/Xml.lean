import Verif.Model.Xml
import Verif.Lemmas.Mem
import Verif.Props.Copy
import Verif.Props.Option
import Verif.Props.Utf16
/-! Lemmas about the entity scanner. -/
namespace Wizard.XmlP
open Wizard Wizard.Props

theorem rd_app (d l : List Byte) (i : Nat) : rd (d ++ l) (d.length + i) = rd l i := by
  unfold rd
  rw [List.getElem?_append_right (Nat.le_add_right _ _), Nat.add_sub_cancel_left]

theorem rd_app0 (d l : List Byte) : rd (d ++ l) d.length = rd l 0 := rd_app d l 0

theorem drop_app (d l : List Byte) (i : Nat) : (d ++ l).drop (d.length + i) = l.drop i := by
  rw [List.drop_append, List.drop_eq_nil_of_le (Nat.le_add_right _ _), List.nil_append, Nat.add_sub_cancel_left]

theorem wr_app (d l m : List Byte) (i : Nat) (b : Byte) (h : wr l i b = .ok m) : wr (d ++ l) (d.length + i) b = .ok (d ++ m) := by
  unfold wr at h ⊢
  split at h
  · rename_i hi
    cases h
    rw [if_pos (by simp; omega), List.set_append_right _ _ (Nat.le_add_right _ _), Nat.add_sub_cancel_left]
  · cases h

theorem rdN_app (d l : List Byte) (i n : Nat) : rdN (d ++ l) (d.length + i) n = rdN l i n := by
  unfold rdN
  rw [drop_app]
  by_cases h : i + n ≤ l.length
  · rw [if_pos h, if_pos (by simp; omega)]
  · rw [if_neg h, if_neg (by simp; omega)]

theorem wrN_app (d l m : List Byte) (i : Nat) (b : List Byte) (h : wrN l i b = .ok m) : wrN (d ++ l) (d.length + i) b = .ok (d ++ m) := by
  unfold wrN at h ⊢
  split at h
  · rename_i hi
    cases h
    rw [if_pos (by simp; omega), show d.length + i + b.length = d.length + (i + b.length) by omega, drop_app,
      List.take_append, List.take_of_length_le (Nat.le_add_right _ _), Nat.add_sub_cancel_left]
    simp
  · cases h

theorem memmove_app (d l m : List Byte) (i j n : Nat) (h : memmoveMem l i j n = .ok m) :
    memmoveMem (d ++ l) (d.length + i) (d.length + j) n = .ok (d ++ m) := by
  unfold memmoveMem at h ⊢
  rw [rdN_app]
  cases hr : rdN l j n with
  | ok b =>
    rw [hr, Res.ok_bind] at h
    rw [Res.ok_bind]
    exact wrN_app d l m i b h
  | ub => rw [hr] at h; cases h
  | fatal => rw [hr] at h; cases h

/-- A move to the front. -/
theorem memmove_front (l : List Byte) (j n : Nat) (h : j + n ≤ l.length) : memmoveMem l 0 j n = .ok ((l.drop j).take n ++ l.drop n) := by
  unfold memmoveMem rdN
  rw [if_pos h, Res.ok_bind]
  have e : ((l.drop j).take n).length = n := by simp; omega
  unfold wrN
  rw [e, if_pos (by omega)]
  simp

theorem strchr_at {c : Byte} (m rest : List Byte) (h0 : (0 : Byte) ∉ m) (hc : c ∉ m) : strchrMem c (m ++ c :: rest) = .ok (some m.length) :=
  strchrMem_some m rest h0 hc

theorem semi_ne : asc ';' ≠ (0 : Byte) := by decide

theorem cut_spec (m tail t : List Byte) (h0 : (0 : Byte) ∉ m) (hm : asc ';' ∉ m) (ht : (0 : Byte) ∉ tail) :
    ∃ t', cutReference (m ++ asc ';' :: (tail ++ 0 :: t)) 0 = .ok (tail ++ 0 :: t') := by
  unfold cutReference
  rw [List.drop_zero, strchr_at m _ h0 hm, Res.ok_bind]
  simp only [Nat.zero_add]
  rw [List.drop_append_length, show asc ';' :: (tail ++ 0 :: t) = (asc ';' :: tail) ++ 0 :: t from rfl,
    strlenMem_text _ _ (by simp only [List.mem_cons, not_or]; exact ⟨fun e => semi_ne e.symm, ht⟩), Res.ok_bind]
  rw [memmove_front _ _ _ (by simp; omega)]
  refine ⟨((m ++ ((asc ';' :: tail) ++ 0 :: t)).drop (asc ';' :: tail).length), ?_⟩
  have e : (m ++ ((asc ';' :: tail) ++ 0 :: t)).drop (m.length + 1) = tail ++ 0 :: t := by
    rw [drop_app]; rfl
  rw [e]
  have e2 : (tail ++ 0 :: t).take (asc ';' :: tail).length = tail ++ [0] := by
    rw [show tail ++ 0 :: t = (tail ++ [0]) ++ t by simp]
    rw [List.take_left' (by simp)]
  rw [e2]
  simp

theorem cut_app (d l m : List Byte) (h : cutReference l 0 = .ok m) : cutReference (d ++ l) d.length = .ok (d ++ m) := by
  unfold cutReference at h ⊢
  rw [List.drop_append_length]
  rw [List.drop_zero] at h
  cases hs : strchrMem (asc ';') l with
  | ub => rw [hs] at h; cases h
  | fatal => rw [hs] at h; cases h
  | ok o =>
    rw [hs, Res.ok_bind] at h
    rw [Res.ok_bind]
    cases o with
    | none => exact absurd h (by simp)
    | some k =>
      simp only [Nat.zero_add] at h ⊢
      rw [drop_app]
      cases hn : strlenMem (l.drop k) with
      | ub => rw [hn] at h; cases h
      | fatal => rw [hn] at h; cases h
      | ok n =>
        rw [hn, Res.ok_bind] at h
        rw [Res.ok_bind]
        have := memmove_app d l m 0 (k + 1) n h
        simpa [Nat.add_assoc] using this

/-! ### Names -/

theorem prefixAt_spec : ∀ (name d r t : List Byte) (i : Nat), (0 : Byte) ∉ name → i ≤ r.length →
    prefixAt (d ++ (r ++ 0 :: t)) (d.length + i) name = .ok (name.isPrefixOf (r.drop i)) := by
  intro name
  induction name with
  | nil => intro d r t i _ _; simp [prefixAt]
  | cons c name ih =>
    intro d r t i h0 hi
    simp only [List.mem_cons, not_or] at h0
    unfold prefixAt
    rw [rd_app]
    by_cases hl : i < r.length
    · have e : rd (r ++ 0 :: t) i = .ok r[i] := by
        unfold rd; rw [List.getElem?_append_left hl, List.getElem?_eq_getElem hl]
      rw [e, Res.ok_bind, List.drop_eq_getElem_cons hl, List.isPrefixOf_cons_cons]
      by_cases hc : r[i] = c
      · rw [if_pos hc, Nat.add_assoc, ih d r t (i + 1) h0.2 hl, hc]; simp
      · rw [if_neg hc]
        have : (c == r[i]) = false := by simp; exact fun e => hc e.symm
        rw [this]; rfl
    · have hi' : i = r.length := by omega
      subst hi'
      have e : rd (r ++ 0 :: t) r.length = .ok 0 := by
        unfold rd; simp
      rw [e, Res.ok_bind, if_neg (fun e => h0.1 e), List.drop_length]
      rfl

/-- The text of the first entity whose name follows. -/
def lookupEnt (r : List Byte) (ents : List (List Byte × List Byte)) : Option (List Byte) :=
  (ents.find? (fun e => e.1.isPrefixOf r)).map (·.2)

theorem findEntity_spec (d r t : List Byte) (c : Byte) : ∀ (ents : List (List Byte × List Byte)), (∀ e ∈ ents, (0 : Byte) ∉ e.1) →
    findEntity (d ++ (c :: r ++ 0 :: t)) (d.length + 1) ents = .ok (lookupEnt r ents) := by
  intro ents
  induction ents with
  | nil => intro _; rfl
  | cons e es ih =>
    intro h
    unfold findEntity
    rw [prefixAt_spec e.1 d (c :: r) t 1 (h e (List.mem_cons_self)) (by simp), Res.ok_bind, ih (fun x hx => h x (List.mem_cons_of_mem _ hx))]
    rw [List.drop_succ_cons, List.drop_zero]
    unfold lookupEnt
    rw [List.find?_cons]
    by_cases hp : e.1.isPrefixOf r = true
    · rw [if_pos hp, hp]; rfl
    · rw [if_neg hp, Bool.eq_false_iff.mpr hp]

/-! ### Replacing a reference -/

/-- A place in the text: `d` is passed, `r` is to come. -/
def scan (d r t : List Byte) (own : Bool) : XmlScan := ⟨d ++ (r ++ 0 :: t), own, d.length⟩

theorem scan_next (d r t : List Byte) (own : Bool) (c : Byte) : (⟨d ++ (c :: r ++ 0 :: t), own, d.length + 1⟩ : XmlScan) = scan (d ++ [c]) r t own := by
  unfold scan; simp

theorem putEntity_some (d m tail t v : List Byte) (ht : (0 : Byte) ∉ tail)
    (hl : v.length + tail.length + 1 ≤ (m ++ asc ';' :: (tail ++ 0 :: t)).length) :
    ∃ t', putEntity (d ++ (m ++ asc ';' :: (tail ++ 0 :: t))) d.length v (some m.length) = .ok (d ++ ((v ++ tail) ++ 0 :: t')) := by
  unfold putEntity
  simp only []
  rw [drop_app, List.drop_append_length, show asc ';' :: (tail ++ 0 :: t) = (asc ';' :: tail) ++ 0 :: t from rfl,
    strlenMem_text _ _ (by simp only [List.mem_cons, not_or]; exact ⟨fun e => semi_ne e.symm, ht⟩), Res.ok_bind]
  generalize hL : m ++ ((asc ';' :: tail) ++ 0 :: t) = L
  have hll : L.length = m.length + 1 + tail.length + 1 + t.length := by rw [← hL]; simp; omega
  have e1 : memmoveMem L v.length (m.length + 1) (asc ';' :: tail).length = .ok (L.take v.length ++ (tail ++ [0]) ++ L.drop (v.length + (tail.length + 1))) := by
    unfold memmoveMem rdN
    rw [if_pos (by rw [hll]; simp; omega), Res.ok_bind]
    have e : (L.drop (m.length + 1)).take (asc ';' :: tail).length = tail ++ [0] := by
      rw [← hL, drop_app, show ((asc ';' :: tail) ++ 0 :: t).drop 1 = (tail ++ [0]) ++ t by simp, List.take_left' (by simp)]
    rw [e]
    unfold wrN
    have e2 : (tail ++ [(0 : Byte)]).length = tail.length + 1 := by simp
    rw [if_pos (by rw [hll, e2]; simp at hl; omega), e2]
  rw [show d.length + m.length + 1 = d.length + (m.length + 1) by omega, memmove_app d L _ _ _ _ e1, Res.ok_bind]
  refine ⟨L.drop (v.length + (tail.length + 1)), ?_⟩
  have hv : v.length ≤ L.length := by rw [hll]; simp at hl; omega
  have e3 : wrN (L.take v.length ++ (tail ++ [0]) ++ L.drop (v.length + (tail.length + 1))) 0 v =
      .ok ((v ++ tail) ++ 0 :: L.drop (v.length + (tail.length + 1))) := by
    unfold wrN
    rw [if_pos (by simp; omega), List.take_zero, List.nil_append, Nat.zero_add, List.append_assoc (L.take v.length)]
    rw [List.drop_left' (by simp; omega)]
    simp
  have := wrN_app d _ _ 0 v e3
  simpa using this

theorem wr_end (a : List Byte) (x b : Byte) : wr (a ++ [x]) a.length b = .ok (a ++ [b]) := wr_at a [] b x

theorem take_scan (d r t : List Byte) (n : Nat) (h : d.length + r.length + 1 ≤ n) :
    (d ++ (r ++ 0 :: t)).take n = d ++ (r ++ 0 :: t.take (n - (d.length + r.length + 1))) := by
  rw [List.take_append, List.take_of_length_le (by omega), List.take_append, List.take_of_length_le (by omega)]
  rw [show n - d.length - r.length = (n - (d.length + r.length + 1)) + 1 by omega, List.take_succ_cons]

theorem growText_own (junk : Nat → Byte) (d r t : List Byte) (len n : Nat) (h : r.length + 1 ≤ len + n) :
    ∃ t', growText junk (d ++ (r ++ 0 :: t)) true d.length len n = .ok (d ++ (r ++ 0 :: t')) ∧ r.length + 1 + t'.length = len + n + 1 := by
  unfold growText
  simp only [if_true]
  have hlen := reallocMem_length (d ++ (r ++ 0 :: t)) (d.length + len + n + 1) junk
  have hform : ∃ t'', reallocMem (d ++ (r ++ 0 :: t)) (d.length + len + n + 1) junk = d ++ (r ++ 0 :: t'') := by
    unfold reallocMem
    rw [take_scan d r t _ (by omega)]
    exact ⟨t.take (d.length + len + n + 1 - (d.length + r.length + 1)) ++ (List.range (d.length + len + n + 1 - (d ++ (r ++ 0 :: t)).length)).map junk, by simp only [List.append_assoc, List.cons_append]⟩
  obtain ⟨t'', ht⟩ := hform
  rw [ht] at hlen ⊢
  simp at hlen
  have hne : t'' ≠ [] := by intro e; subst e; simp at hlen; omega
  obtain ⟨t3, x, rfl⟩ : ∃ t3 x, t'' = t3 ++ [x] := ⟨t''.dropLast, t''.getLast hne, (List.dropLast_concat_getLast hne).symm⟩
  refine ⟨t3 ++ [0], ?_, ?_⟩
  · have hx : (d ++ (r ++ 0 :: t3)).length = d.length + len + n := by simp at hlen ⊢; omega
    have := wr_end (d ++ (r ++ 0 :: t3)) x 0
    rw [hx] at this
    simpa using this
  · simp at hlen ⊢; omega

theorem growText_new (junk : Nat → Byte) (d r t : List Byte) (len n : Nat) (hd : (0 : Byte) ∉ d) (hr : (0 : Byte) ∉ r) (h : r.length + 1 ≤ len + n) :
    ∃ t', growText junk (d ++ (r ++ 0 :: t)) false d.length len n = .ok (d ++ (r ++ 0 :: t')) ∧ r.length + 1 + t'.length = len + n + 1 := by
  unfold growText
  simp only [Bool.false_eq_true, if_false]
  obtain ⟨ret, hc⟩ := C05_copy (List.replicate (d.length + len + n) 0 ++ [junk (d.length + len + n)]) (d ++ r) t (d.length + len + n)
    (by simp only [List.mem_append, not_or]; exact ⟨hd, hr⟩) (by omega) (by simp)
  rw [← List.append_assoc, hc, Res.ok_bind, List.take_of_length_le (by simp; omega)]
  rw [Nat.min_eq_left (by simp; omega)]
  refine ⟨_, by rw [List.append_assoc], ?_⟩
  simp
  omega

theorem growText_nul (junk : Nat → Byte) (d r t : List Byte) (len n : Nat) (hd : (0 : Byte) ∈ d) (hn : 0 < n) :
    ∃ d' t', growText junk (d ++ (r ++ 0 :: t)) false d.length len n = .ok (d' ++ (List.replicate (len + n) 0 ++ t')) ∧ d'.length = d.length := by
  unfold growText
  simp only [Bool.false_eq_true, if_false]
  obtain ⟨d1, d2, hd2, h1⟩ := List.eq_append_cons_of_mem hd
  have hdl : d.length = d1.length + 1 + d2.length := by rw [hd2]; simp; omega
  obtain ⟨ret, hc⟩ := C05_copy (List.replicate (d.length + len + n) 0 ++ [junk (d.length + len + n)]) d1 (d2 ++ (r ++ 0 :: t)) (d.length + len + n)
    h1 (by omega) (by simp)
  have e : d ++ (r ++ 0 :: t) = d1 ++ 0 :: (d2 ++ (r ++ 0 :: t)) := by
    rw [hd2]; simp
  rw [e, hc, Res.ok_bind, List.take_of_length_le (by omega), Nat.min_eq_left (by omega)]
  refine ⟨d1 ++ 0 :: List.replicate d2.length 0, [junk (d.length + len + n)], ?_, by simp; omega⟩
  simp only []
  congr 1
  rw [List.drop_append, List.drop_replicate, show d.length + len + n - (d1.length + 1) = d2.length + (len + n) by omega,
    List.length_replicate, show d1.length + 1 - (d.length + len + n) = 0 by omega, List.drop_zero, ← List.replicate_append_replicate]
  simp only [List.append_assoc, List.cons_append]

theorem strchr_text {c : Byte} (hc : c ≠ 0) (r t : List Byte) (hr : (0 : Byte) ∉ r) :
    (c ∉ r ∧ strchrMem c (r ++ 0 :: t) = .ok none) ∨
    ∃ m tail, r = m ++ c :: tail ∧ c ∉ m ∧ strchrMem c (r ++ 0 :: t) = .ok (some m.length) := by
  by_cases h : c ∈ r
  · obtain ⟨m, tail, rfl, hm⟩ := List.eq_append_cons_of_mem h
    refine .inr ⟨m, tail, rfl, hm, ?_⟩
    rw [List.append_assoc, List.cons_append]
    exact strchrMem_some m _ (fun h0 => hr (List.mem_append_left _ h0)) hm
  · exact .inl ⟨h, strchrMem_none hc r t hr h⟩

theorem size_pred (n : Nat) (h1 : 0 < n) (h2 : n < sizeMax) : (n + sizeMax - 1) % sizeMax = n - 1 := by
  rw [show n + sizeMax - 1 = n - 1 + sizeMax by omega, Nat.add_mod_right, Nat.mod_eq_of_lt (by omega)]

theorem wrN_zeros (v t : List Byte) (z : Nat) (hz : v.length < z) :
    ∃ t', wrN (List.replicate z 0 ++ t) 0 v = .ok (v ++ 0 :: t') := by
  unfold wrN
  rw [if_pos (by simp; omega)]
  refine ⟨List.replicate (z - v.length - 1) 0 ++ t, ?_⟩
  rw [List.take_zero, List.nil_append, Nat.zero_add, List.drop_append, List.drop_replicate, List.length_replicate,
    show v.length - z = 0 by omega, List.drop_zero, show z - v.length = (z - v.length - 1) + 1 by omega, List.replicate_succ]
  simp

/-- Replacing a reference by a text that is not empty. -/
theorem replace_text (junk : Nat → Byte) (d m tail t v : List Byte) (own : Bool) (hm0 : (0 : Byte) ∉ m) (hm : asc ';' ∉ m) (ht : (0 : Byte) ∉ tail)
    (hv : v ≠ []) (hvs : v.length < sizeMax) :
    ∃ d' r' t' own', replaceEntity junk (d ++ ((m ++ asc ';' :: tail) ++ 0 :: t)) own d.length v = .ok (d' ++ (r' ++ 0 :: t'), own') ∧
      d'.length = d.length ∧ (((0 : Byte) ∉ d ∧ d' = d ∧ r' = v ++ tail) ∨ ((0 : Byte) ∈ d ∧ (r' = v ++ tail ∨ r' = v))) := by
  have hvl : 0 < v.length := List.length_pos_iff.mpr hv
  have hr0 : (0 : Byte) ∉ m ++ asc ';' :: tail := by
    simp only [List.mem_append, List.mem_cons, not_or]; exact ⟨hm0, fun e => semi_ne e.symm, ht⟩
  have hsplit : ∀ u : List Byte, (m ++ asc ';' :: tail) ++ 0 :: u = m ++ asc ';' :: (tail ++ 0 :: u) := by intro u; simp
  have hn : strlenMem (((m ++ asc ';' :: tail) ++ 0 :: t).drop m.length) = .ok (tail.length + 1) := by
    rw [hsplit, List.drop_append_length, show asc ';' :: (tail ++ 0 :: t) = (asc ';' :: tail) ++ 0 :: t from rfl, strlenMem_text _ _ (by
      simp only [List.mem_cons, not_or]; exact ⟨fun e => semi_ne e.symm, ht⟩)]
    rfl
  unfold replaceEntity
  rw [List.drop_append_length]
  have hs : ∀ u, strchrMem (asc ';') ((m ++ asc ';' :: tail) ++ 0 :: u) = .ok (some m.length) := by
    intro u; rw [hsplit]; exact strchrMem_some m _ hm0 hm
  rw [hs, Res.ok_bind, size_pred _ hvl hvs]
  simp only []
  by_cases hg : v.length - 1 ≥ m.length
  · rw [if_pos hg, drop_app, hn, Res.ok_bind]
    have hroom : (m ++ asc ';' :: tail).length + 1 ≤ v.length + (tail.length + 1) := by simp; omega
    have fin : ∀ t', (m ++ asc ';' :: tail).length + 1 + t'.length = v.length + (tail.length + 1) + 1 →
        growText junk (d ++ ((m ++ asc ';' :: tail) ++ 0 :: t)) own d.length v.length (tail.length + 1) = .ok (d ++ ((m ++ asc ';' :: tail) ++ 0 :: t')) →
        ∃ t'', (do
          let mem ← growText junk (d ++ ((m ++ asc ';' :: tail) ++ 0 :: t)) own d.length v.length (tail.length + 1)
          let e ← strchrMem (asc ';') (mem.drop d.length)
          let mem ← putEntity mem d.length v e
          Res.ok (mem, true)) = .ok (d ++ ((v ++ tail) ++ 0 :: t''), true) := by
      intro t' hl hgr
      rw [hgr, Res.ok_bind, List.drop_append_length, hs, Res.ok_bind, hsplit]
      obtain ⟨t'', hp⟩ := putEntity_some d m tail t' v ht (by simp at hl ⊢; omega)
      rw [hp]
      exact ⟨t'', rfl⟩
    cases own with
    | true =>
      obtain ⟨t', hgr, hl⟩ := growText_own junk d (m ++ asc ';' :: tail) t v.length (tail.length + 1) hroom
      obtain ⟨t'', h⟩ := fin t' hl hgr
      refine ⟨d, v ++ tail, t'', true, h, rfl, ?_⟩
      by_cases h0 : (0 : Byte) ∈ d
      · exact .inr ⟨h0, .inl rfl⟩
      · exact .inl ⟨h0, rfl, rfl⟩
    | false =>
      by_cases h0 : (0 : Byte) ∈ d
      · obtain ⟨d', t', hgr, hl⟩ := growText_nul junk d (m ++ asc ';' :: tail) t v.length (tail.length + 1) h0 (by omega)
        rw [hgr, Res.ok_bind, ← hl, List.drop_append_length]
        have hnone : strchrMem (asc ';') (List.replicate (v.length + (tail.length + 1)) 0 ++ t') = .ok none := by
          rw [show v.length + (tail.length + 1) = (v.length + tail.length) + 1 by omega, List.replicate_succ, List.cons_append]
          exact strchrMem_none semi_ne [] _ (by simp) (by simp)
        rw [hnone, Res.ok_bind]
        obtain ⟨t'', hw⟩ := wrN_zeros v t' (v.length + (tail.length + 1)) (by omega)
        refine ⟨d', v, t'', true, ?_, rfl, .inr ⟨h0, .inr rfl⟩⟩
        unfold putEntity
        have := wrN_app d' _ _ 0 v hw
        simp only [Nat.add_zero] at this
        simp only []
        rw [this]
        rfl
      · obtain ⟨t', hgr, hl⟩ := growText_new junk d (m ++ asc ';' :: tail) t v.length (tail.length + 1) h0 hr0 hroom
        obtain ⟨t'', h⟩ := fin t' hl hgr
        exact ⟨d, v ++ tail, t'', true, h, rfl, .inl ⟨h0, rfl, rfl⟩⟩
  · rw [if_neg hg, hsplit]
    obtain ⟨t'', hp⟩ := putEntity_some d m tail t v ht (by simp; omega)
    rw [hp]
    refine ⟨d, v ++ tail, t'', own, rfl, rfl, ?_⟩
    by_cases h0 : (0 : Byte) ∈ d
    · exact .inr ⟨h0, .inl rfl⟩
    · exact .inl ⟨h0, rfl, rfl⟩

theorem wrN_nil (l : List Byte) (i : Nat) (h : i ≤ l.length) : wrN l i [] = .ok l := by
  unfold wrN
  rw [if_pos (by simpa using h)]
  simp

/-- What putting an empty text does once the buffer is there. -/
theorem putEmpty (d r t : List Byte) (hr : (0 : Byte) ∉ r) :
    ∃ r' t', (do
      let e ← strchrMem (asc ';') ((d ++ (r ++ 0 :: t)).drop d.length)
      let mem ← putEntity (d ++ (r ++ 0 :: t)) d.length [] e
      Res.ok (mem, true)) = .ok (d ++ (r' ++ 0 :: t'), true) ∧ (r' = r ∧ asc ';' ∉ r ∨ ∃ m tail, r = m ++ asc ';' :: tail ∧ asc ';' ∉ m ∧ r' = tail) := by
  rw [List.drop_append_length]
  rcases strchr_text semi_ne r t hr with ⟨hc, h⟩ | ⟨m, tail, rfl, hm, h⟩
  · rw [h, Res.ok_bind]
    refine ⟨r, t, ?_, .inl ⟨rfl, hc⟩⟩
    unfold putEntity
    simp only []
    rw [wrN_nil _ _ (by simp)]
    rfl
  · rw [h, Res.ok_bind]
    simp only [List.mem_append, List.mem_cons, not_or] at hr
    obtain ⟨t', hp⟩ := putEntity_some d m tail t [] hr.2.2 (by simp; omega)
    rw [show (m ++ asc ';' :: tail) ++ 0 :: t = m ++ asc ';' :: (tail ++ 0 :: t) by simp, hp]
    exact ⟨tail, t', rfl, .inr ⟨m, tail, rfl, hm, rfl⟩⟩

theorem growEmpty_own (junk : Nat → Byte) (d r t : List Byte) (n : Nat) (h : n < r.length) :
    growText junk (d ++ (r ++ 0 :: t)) true d.length 0 n = .ok (d ++ (r.take n ++ 0 :: [])) := by
  unfold growText
  simp only [if_true, Nat.add_zero]
  have e : reallocMem (d ++ (r ++ 0 :: t)) (d.length + n + 1) junk = (d ++ r.take n) ++ [r[n]] := by
    unfold reallocMem
    rw [List.take_append, List.take_of_length_le (by omega), List.take_append, show d.length + n + 1 - d.length = n + 1 by omega,
      List.take_add_one, List.getElem?_eq_getElem h, show d.length + n + 1 - (d ++ (r ++ 0 :: t)).length = 0 by simp; omega,
      show n + 1 - r.length = 0 by omega]
    simp
  have hx : (d ++ r.take n).length = d.length + n := by simp; omega
  have := wr_end (d ++ r.take n) r[n] 0
  rw [hx] at this
  rw [e, this, List.append_assoc]

theorem growEmpty_new (junk : Nat → Byte) (d r t : List Byte) (n : Nat) (hd : (0 : Byte) ∉ d) (hr : (0 : Byte) ∉ r) (hn : 0 < n) (h : n ≤ r.length) :
    ∃ t', growText junk (d ++ (r ++ 0 :: t)) false d.length 0 n = .ok (d ++ (r.take (n - 1) ++ 0 :: t')) := by
  unfold growText
  simp only [Bool.false_eq_true, if_false, Nat.add_zero]
  obtain ⟨ret, hc⟩ := C05_copy (List.replicate (d.length + n) 0 ++ [junk (d.length + n)]) (d ++ r) t (d.length + n)
    (by simp only [List.mem_append, not_or]; exact ⟨hd, hr⟩) (by omega) (by simp)
  rw [← List.append_assoc, hc, Res.ok_bind, List.take_append, List.take_of_length_le (by omega), show d.length + n - 1 - d.length = n - 1 by omega]
  exact ⟨_, by rw [List.append_assoc]⟩

/-- Replacing a reference by an empty text. -/
theorem replace_empty (junk : Nat → Byte) (d m tail t : List Byte) (own : Bool) (hm0 : (0 : Byte) ∉ m) (hm : asc ';' ∉ m) (ht : (0 : Byte) ∉ tail)
    (hne : m ≠ []) :
    ∃ d' r' t' own', replaceEntity junk (d ++ ((m ++ asc ';' :: tail) ++ 0 :: t)) own d.length [] = .ok (d' ++ (r' ++ 0 :: t'), own') ∧
      d'.length = d.length ∧ r'.Sublist (m ++ asc ';' :: tail) ∧ r'.length < (m ++ asc ';' :: tail).length := by
  have hml : 0 < m.length := List.length_pos_iff.mpr hne
  have hr0 : (0 : Byte) ∉ m ++ asc ';' :: tail := by
    simp only [List.mem_append, List.mem_cons, not_or]; exact ⟨hm0, fun e => semi_ne e.symm, ht⟩
  have hsplit : ∀ u : List Byte, (m ++ asc ';' :: tail) ++ 0 :: u = m ++ asc ';' :: (tail ++ 0 :: u) := by intro u; simp
  have hn : strlenMem (((m ++ asc ';' :: tail) ++ 0 :: t).drop m.length) = .ok (tail.length + 1) := by
    rw [hsplit, List.drop_append_length, show asc ';' :: (tail ++ 0 :: t) = (asc ';' :: tail) ++ 0 :: t from rfl, strlenMem_text _ _ (by
      simp only [List.mem_cons, not_or]; exact ⟨fun e => semi_ne e.symm, ht⟩)]
    rfl
  have hs : ∀ u, strchrMem (asc ';') ((m ++ asc ';' :: tail) ++ 0 :: u) = .ok (some m.length) := by
    intro u; rw [hsplit]; exact strchrMem_some m _ hm0 hm
  have hcut : ∀ (k : Nat) (u : List Byte), k < (m ++ asc ';' :: tail).length →
      growText junk (d ++ ((m ++ asc ';' :: tail) ++ 0 :: t)) own d.length 0 (tail.length + 1) = .ok (d ++ ((m ++ asc ';' :: tail).take k ++ 0 :: u)) →
      ∃ r' t', (do
          let mem ← growText junk (d ++ ((m ++ asc ';' :: tail) ++ 0 :: t)) own d.length 0 (tail.length + 1)
          let e ← strchrMem (asc ';') (mem.drop d.length)
          let mem ← putEntity mem d.length [] e
          Res.ok (mem, true)) = .ok (d ++ (r' ++ 0 :: t'), true) ∧ r'.Sublist (m ++ asc ';' :: tail) ∧ r'.length < (m ++ asc ';' :: tail).length := by
    intro k u hk hgr
    rw [hgr, Res.ok_bind]
    obtain ⟨r', t', h, hcase⟩ := putEmpty d ((m ++ asc ';' :: tail).take k) u (fun h0 => hr0 (List.mem_of_mem_take h0))
    refine ⟨r', t', h, ?_⟩
    have hsub := List.take_sublist k (m ++ asc ';' :: tail)
    have hlt : ((m ++ asc ';' :: tail).take k).length < (m ++ asc ';' :: tail).length := by rw [List.length_take]; omega
    rcases hcase with ⟨rfl, _⟩ | ⟨m', tail', he, _, rfl⟩
    · exact ⟨hsub, hlt⟩
    · have h2 : r'.Sublist ((m ++ asc ';' :: tail).take k) := by
        rw [he]
        exact ((List.Sublist.refl r').cons (asc ';')).trans (List.sublist_append_right _ _)
      exact ⟨h2.trans hsub, Nat.lt_of_le_of_lt h2.length_le hlt⟩
  unfold replaceEntity
  rw [List.drop_append_length, hs, Res.ok_bind]
  simp only []
  by_cases hg : (([] : List Byte).length + sizeMax - 1) % sizeMax ≥ m.length
  · rw [if_pos hg, drop_app, hn, Res.ok_bind]
    cases own with
    | true =>
      obtain ⟨r', t', h, h1, h2⟩ := hcut (tail.length + 1) [] (by simp; omega) (growEmpty_own junk d _ t _ (by simp; omega))
      exact ⟨d, r', t', true, h, rfl, h1, h2⟩
    | false =>
      by_cases h0 : (0 : Byte) ∈ d
      · obtain ⟨d', t', hgr, hl⟩ := growText_nul junk d (m ++ asc ';' :: tail) t 0 (tail.length + 1) h0 (by omega)
        rw [show ([] : List Byte).length = 0 from rfl, hgr, Res.ok_bind]
        obtain ⟨r', t'', h, hcase⟩ := putEmpty d' [] (List.replicate tail.length 0 ++ t') (by simp)
        refine ⟨d', [], t'', true, ?_, hl, List.nil_sublist _, by simp; omega⟩
        rcases hcase with ⟨rfl, _⟩ | ⟨m', tail', he, _, rfl⟩
        · rw [← h, ← hl, Nat.zero_add, List.replicate_succ]
          simp only [List.cons_append, List.nil_append]
        · simp at he
      · obtain ⟨t', hgr⟩ := growEmpty_new junk d (m ++ asc ';' :: tail) t (tail.length + 1) h0 hr0 (by omega) (by simp)
        obtain ⟨r', t', h, h1, h2⟩ := hcut (tail.length + 1 - 1) t' (by simp; omega) hgr
        exact ⟨d, r', t', true, h, rfl, h1, h2⟩
  · rw [if_neg hg, hsplit]
    obtain ⟨t'', hp⟩ := putEntity_some d m tail t [] ht (by simp; omega)
    rw [hp]
    exact ⟨d, tail, t'', own, rfl, rfl, ((List.Sublist.refl tail).cons (asc ';')).trans (List.sublist_append_right _ _), by simp; omega⟩

/-! ### Character references -/

/-- The continuation bytes `putTail` writes. -/
def tailBytes (c : Nat) : Nat → List Byte
  | 0 => []
  | bits + 1 => BitVec.ofNat 8 (0x80 ||| ((c >>> (6 * bits)) &&& 0x3f)) :: tailBytes c bits

theorem tailBytes_length (c : Nat) : ∀ n, (tailBytes c n).length = n := by
  intro n
  induction n with
  | zero => rfl
  | succ n ih => simp [tailBytes, ih]

/-- The bytes `putChar` writes. -/
def charBytes (c : Int) : List Byte :=
  if c < 0x80 then [BitVec.ofInt 8 c]
  else BitVec.ofNat 8 ((0xFF <<< (7 - (bitLen c.toNat - 2) / 5)) ||| (c.toNat >>> (6 * ((bitLen c.toNat - 2) / 5)))) :: tailBytes c.toNat ((bitLen c.toNat - 2) / 5)

theorem putTail_spec (c : Nat) : ∀ (n : Nat) (d l : List Byte), n ≤ l.length →
    putTail c n (d ++ l) d.length = .ok ((d ++ tailBytes c n) ++ l.drop n, (d ++ tailBytes c n).length) := by
  intro n
  induction n with
  | zero => intro d l _; simp [putTail, tailBytes]
  | succ n ih =>
    intro d l hl
    cases l with
    | nil => simp at hl
    | cons x l =>
      unfold putTail
      rw [wr_at, Res.ok_bind]
      have := ih (d ++ [BitVec.ofNat 8 (0x80 ||| ((c >>> (6 * n)) &&& 0x3f))]) l (by simpa using hl)
      simp only [List.length_append, List.length_singleton, List.append_assoc, List.singleton_append] at this
      rw [this]
      simp [tailBytes]

theorem putChar_spec (c : Int) (d l : List Byte) (h : (charBytes c).length ≤ l.length) :
    putChar (d ++ l) d.length c = .ok ((d ++ charBytes c) ++ l.drop (charBytes c).length, (d ++ charBytes c).length) := by
  unfold putChar
  by_cases hc : c < 0x80
  · have e : charBytes c = [BitVec.ofInt 8 c] := by unfold charBytes; rw [if_pos hc]
    rw [e] at h ⊢
    cases l with
    | nil => simp at h
    | cons x l =>
      rw [if_pos hc, wr_at, Res.ok_bind]
      simp
  · have hn : ¬ c.toNat < 0x80 := by omega
    rw [if_neg hc]
    unfold putUtf8
    rw [if_neg hn]
    have e : charBytes c = BitVec.ofNat 8 ((0xFF <<< (7 - (bitLen c.toNat - 2) / 5)) ||| (c.toNat >>> (6 * ((bitLen c.toNat - 2) / 5)))) :: tailBytes c.toNat ((bitLen c.toNat - 2) / 5) := by
      unfold charBytes; rw [if_neg hc]
    rw [e] at h ⊢
    cases l with
    | nil => simp at h
    | cons x l =>
      simp only []
      rw [wr_at, Res.ok_bind]
      generalize BitVec.ofNat 8 ((0xFF <<< (7 - (bitLen c.toNat - 2) / 5)) ||| (c.toNat >>> (6 * ((bitLen c.toNat - 2) / 5)))) = b at *
      have := putTail_spec c.toNat ((bitLen c.toNat - 2) / 5) (d ++ [b]) l (by
        simp only [List.length_cons, tailBytes_length] at h; omega)
      simp only [List.length_append, List.length_singleton, List.append_assoc, List.singleton_append] at this
      rw [this]
      simp [tailBytes_length]

theorem charBytes_length (c : Int) : (charBytes c).length = if c < 0x80 then 1 else (bitLen c.toNat - 2) / 5 + 1 := by
  unfold charBytes
  split <;> simp [tailBytes_length]

theorem charBytes_utf8 (n : Nat) (h : n < 0x110000) : charBytes n = Spec.Utf.utf8Char n := by
  have h1 := putUtf8_spec n h [] (List.replicate 40 0) (by simp)
  have hb : (bitLen n - 2) / 5 ≤ 40 - 1 := by
    have := bitLen_le 21 n (by omega)
    omega
  have h2 := putChar_spec n [] (List.replicate 40 0) (by
    rw [charBytes_length]; split
    · simp
    · simp only [Int.toNat_natCast, List.length_replicate]; omega)
  have h3 : putChar ([] ++ List.replicate 40 0) ([] : List Byte).length n = putUtf8 n ([] ++ List.replicate 40 0) ([] : List Byte).length := by
    unfold putChar
    by_cases hn : (n : Int) < 0x80
    · rw [if_pos hn]
      unfold putUtf8
      rw [if_pos (by omega)]
      rfl
    · rw [if_neg hn]; rfl
  rw [h3, h1] at h2
  have h2 := Res.ok.inj h2
  have ha := congrArg Prod.fst h2
  have hb := congrArg Prod.snd h2
  simp only [List.nil_append] at ha hb
  exact (List.append_inj ha hb).1.symm

theorem digitsVal_lt (base : Nat) : ∀ (l : List Byte) (a k : Nat), (∀ c ∈ l, digitVal c < base) → a < base ^ k →
    l.foldl (fun a c => a * base + digitVal c) a < base ^ (k + l.length) := by
  intro l
  induction l with
  | nil => intro a k _ h; simpa using h
  | cons c l ih =>
    intro a k hd ha
    rw [List.foldl_cons, List.length_cons, show k + (l.length + 1) = (k + 1) + l.length by omega]
    apply ih _ _ (fun x hx => hd x (List.mem_cons_of_mem _ hx))
    have h1 := hd c List.mem_cons_self
    have h2 : (a + 1) * base ≤ base ^ k * base := Nat.mul_le_mul_right _ ha
    rw [Nat.pow_succ]
    rw [Nat.add_mul, Nat.one_mul] at h2
    omega

theorem not_space_semi : isSpaceC (asc ';') = false := by decide
theorem digit_semi : ¬ digitVal (asc ';') < 36 := by decide

theorem mem_takeWhile {α : Type} (p : α → Bool) : ∀ (l : List α) (a : α), a ∈ l.takeWhile p → p a = true := by
  intro l
  induction l with
  | nil => intro a h; simp at h
  | cons x l ih =>
    intro a h
    rw [List.takeWhile_cons] at h
    by_cases hx : p x = true
    · rw [if_pos hx] at h
      rcases List.mem_cons.mp h with rfl | h
      · exact hx
      · exact ih a h
    · rw [if_neg hx] at h; simp at h

theorem take_takeWhile {α : Type} (p : α → Bool) : ∀ (l : List α), l.take (l.takeWhile p).length = l.takeWhile p := by
  intro l
  induction l with
  | nil => rfl
  | cons x l ih =>
    rw [List.takeWhile_cons]
    by_cases hx : p x = true
    · rw [if_pos hx, List.length_cons, List.take_succ_cons, ih]
    · rw [if_neg hx]; rfl

/-- What `strtol` says about the digits it has read. -/
theorem strtol_bounds (base : Nat) (hb : base = 10 ∨ base = 16) (s : List Byte) :
    (strtolC base s).2 ≤ s.length ∧ asc ';' ∉ s.take (strtolC base s).2 ∧ (strtolC base s).1.natAbs < base ^ (strtolC base s).2 := by
  unfold strtolC
  simp only []
  generalize hw : s.takeWhile isSpaceC = w
  generalize hs1 : s.drop w.length = s1
  generalize hsg : (s1.takeWhile (fun c => c == asc '-' || c == asc '+')).take 1 = sg
  generalize hs2 : s1.drop sg.length = s2
  generalize hx : (if base = 16 ∧ s2.head? = some (asc '0') ∧ (s2[1]? = some (asc 'x') ∨ s2[1]? = some (asc 'X')) ∧ (s2[2]?.any (fun c => decide (digitVal c < 16))) = true then 2 else 0) = x
  generalize hs3 : s2.drop x = s3
  generalize hd : s3.takeWhile (fun c => decide (digitVal c < base)) = dg
  by_cases hne : dg = []
  · rw [if_pos hne]; simp
  rw [if_neg hne]
  have hwl : w.length ≤ s.length := by rw [← hw]; exact (List.takeWhile_prefix _).length_le
  have hsl : s1.length = s.length - w.length := by rw [← hs1]; simp
  have hsgl : sg.length ≤ s1.length := by
    rw [← hsg, List.length_take]
    have := (List.takeWhile_prefix (fun c => c == asc '-' || c == asc '+') (l := s1)).length_le
    omega
  have hs2l : s2.length = s1.length - sg.length := by rw [← hs2]; simp
  have hxl : x ≤ s2.length ∧ asc ';' ∉ s2.take x := by
    rw [← hx]
    split
    · rename_i h
      obtain ⟨_, h0, h1, _⟩ := h
      match s2, h0, h1 with
      | a :: b :: r, h0, h1 =>
        have ha : a = asc '0' := by simpa using h0
        have hb : b = asc 'x' ∨ b = asc 'X' := by simpa using h1
        refine ⟨by simp, ?_⟩
        rw [ha]
        rcases hb with rfl | rfl
        · show asc ';' ∉ [asc '0', asc 'x']; decide
        · show asc ';' ∉ [asc '0', asc 'X']; decide
      | [a], _, h1 => simp at h1
    · simp
  have hs3l : s3.length = s2.length - x := by rw [← hs3]; simp
  have hdl : dg.length ≤ s3.length := by rw [← hd]; exact (List.takeWhile_prefix _).length_le
  have hdd : ∀ c ∈ dg, digitVal c < base := by
    intro c hc
    rw [← hd] at hc
    simpa using mem_takeWhile _ _ _ hc
  refine ⟨by simp only []; omega, ?_, ?_⟩
  · simp only []
    have e : s.take (w.length + sg.length + x + dg.length) = w ++ (s1.take sg.length ++ (s2.take x ++ s3.take dg.length)) := by
      rw [← hs3, ← hs2, ← hs1]
      have hwt : s.take w.length = w := by rw [← hw]; exact take_takeWhile _ _
      rw [Nat.add_assoc, Nat.add_assoc, List.take_add, List.take_add, List.take_add, hwt]
    rw [e]
    simp only [List.mem_append, not_or]
    refine ⟨?_, ?_, hxl.2, ?_⟩
    · intro hm
      rw [← hw] at hm
      have := mem_takeWhile _ _ _ hm
      rw [not_space_semi] at this; cases this
    · intro hm
      have e1 : s1.take sg.length = sg := by
        rw [← hsg]
        have hp := List.takeWhile_prefix (fun c => c == asc '-' || c == asc '+') (l := s1)
        have hp2 := (List.take_prefix 1 (s1.takeWhile (fun c => c == asc '-' || c == asc '+'))).trans hp
        obtain ⟨q, hq⟩ := hp2
        conv => lhs; rw [← hq]
        exact List.take_left' (by rw [hq])
      rw [e1, ← hsg] at hm
      have := mem_takeWhile _ _ _ (List.mem_of_mem_take hm)
      revert this; decide
    · intro hm
      rw [← hd, take_takeWhile] at hm
      have := mem_takeWhile _ _ _ hm
      have h := digit_semi
      simp at this
      omega
  · simp only []
    have h1 := digitsVal_lt base dg 0 0 hdd (by simp)
    rw [Nat.zero_add] at h1
    have h2 : base ^ dg.length ≤ base ^ (w.length + sg.length + x + dg.length) := Nat.pow_le_pow_right (by omega) (by omega)
    have h3 : digitsVal base dg < base ^ (w.length + sg.length + x + dg.length) := Nat.lt_of_lt_of_le h1 h2
    generalize base ^ (w.length + sg.length + x + dg.length) = B at h3 ⊢
    generalize digitsVal base dg = n at h3 ⊢
    by_cases hm : sg = [asc '-']
    · rw [if_pos hm]; omega
    · rw [if_neg hm]; omega

theorem toInt32_big (v : Int) (X : Nat) (h0 : 0 < X) (hX : X ≤ 2 ^ 31) (h : (X : Int) ≤ toInt32 v) : X ≤ v.natAbs := by
  unfold toInt32 at h
  rw [BitVec.toInt_ofInt] at h
  rw [Int.bmod_def] at h
  simp only [Nat.reducePow] at *
  omega

theorem toInt32_lt (v : Int) : toInt32 v < 2 ^ 31 := by
  unfold toInt32
  have := BitVec.toInt_lt (x := BitVec.ofInt 32 v)
  simpa using this

theorem strAt_spec (d r t : List Byte) (i : Nat) (hi : i ≤ r.length) (h0 : (0 : Byte) ∉ r) : strAt (d ++ (r ++ 0 :: t)) (d.length + i) = .ok (r.drop i) := by
  unfold strAt
  have e : (d ++ (r ++ 0 :: t)).drop (d.length + i) = r.drop i ++ 0 :: t := by
    rw [drop_app, List.drop_append, show i - r.length = 0 by omega, List.drop_zero]
  rw [e, strlenMem_text _ _ (fun h => h0 (List.mem_of_mem_drop h)), Res.ok_bind, List.take_left' rfl]

theorem rd_text (d r t : List Byte) (i : Nat) (hi : i ≤ r.length) : rd (d ++ (r ++ 0 :: t)) (d.length + i) = .ok ((r.drop i).headD 0) := by
  rw [rd_app]
  unfold rd
  by_cases h : i < r.length
  · rw [List.getElem?_append_left h, List.getElem?_eq_getElem h, List.drop_eq_getElem_cons h]; rfl
  · have : i = r.length := by omega
    subst this
    simp

/-- The offset at which the digits of a character reference start. -/
def refStart (r : List Byte) : Nat := if (r.drop 2).headD 0 = asc 'x' then 3 else 2

/-- What `strtol` says about a character reference. -/
def refValue (r : List Byte) : Int × Nat := strtolC (if (r.drop 2).headD 0 = asc 'x' then 16 else 10) (r.drop (refStart r))

theorem width_le (r : List Byte) (c : Int) (hc : c = toInt32 (refValue r).1) : (charBytes c).length ≤ refStart r + (refValue r).2 := by
  rw [charBytes_length]
  split
  · unfold refStart; split <;> omega
  · rename_i hge
    have hb := bitLen_le 31 c.toNat (by have := toInt32_lt (refValue r).1; rw [← hc] at this; omega)
    have h80 := toInt32_big (refValue r).1 0x80 (by decide) (by decide) (by rw [← hc]; omega)
    by_cases hbig : 2 ^ 26 ≤ c
    · have h26 := toInt32_big (refValue r).1 (2 ^ 26) (by decide) (by decide) (by rw [← hc]; omega)
      have hlt : (refValue r).1.natAbs < 16 ^ (refValue r).2 := by
        unfold refValue
        split
        · exact (strtol_bounds 16 (.inr rfl) _).2.2
        · exact Nat.lt_of_lt_of_le (strtol_bounds 10 (.inl rfl) _).2.2 (Nat.pow_le_pow_left (by decide) _)
      have hu : 6 < (refValue r).2 := by
        apply Nat.lt_of_not_le
        intro hle
        have := Nat.pow_le_pow_right (show 0 < 16 by decide) hle
        omega
      omega
    · have hb2 := bitLen_le 26 c.toNat (by omega)
      by_cases hx : (r.drop 2).headD 0 = asc 'x'
      · have hs : refStart r = 3 := by unfold refStart; rw [if_pos hx]
        have hv : refValue r = strtolC 16 (r.drop (refStart r)) := by unfold refValue; rw [if_pos hx]
        have hlt := (strtol_bounds 16 (.inr rfl) (r.drop (refStart r))).2.2
        rw [← hv] at hlt
        have hu : 1 < (refValue r).2 := by
          apply Nat.lt_of_not_le
          intro hle
          have := Nat.pow_le_pow_right (show 0 < 16 by decide) hle
          omega
        omega
      · have hs : refStart r = 2 := by unfold refStart; rw [if_neg hx]
        have hv : refValue r = strtolC 10 (r.drop (refStart r)) := by unfold refValue; rw [if_neg hx]
        have hlt := (strtol_bounds 10 (.inl rfl) (r.drop (refStart r))).2.2
        rw [← hv] at hlt
        have hu : 2 < (refValue r).2 := by
          apply Nat.lt_of_not_le
          intro hle
          have := Nat.pow_le_pow_right (show 0 < 10 by decide) hle
          omega
        omega

theorem refStart_le (r2 : List Byte) : refStart (asc '&' :: asc '#' :: r2) ≤ (asc '&' :: asc '#' :: r2).length := by
  unfold refStart
  cases r2 with
  | nil => rw [if_neg (by decide)]; simp
  | cons x r => simp; split <;> omega

theorem refUsed_le (r2 : List Byte) (r : List Byte) (hr : r = asc '&' :: asc '#' :: r2) :
    refStart r + (refValue r).2 ≤ r.length ∧ asc ';' ∉ r.take (refStart r + (refValue r).2) := by
  have hb : (if (r.drop 2).headD 0 = asc 'x' then 16 else 10) = 10 ∨ (if (r.drop 2).headD 0 = asc 'x' then 16 else 10) = 16 := by
    split <;> simp
  have h := strtol_bounds _ hb (r.drop (refStart r))
  have hs : refStart r ≤ r.length := by rw [hr]; exact refStart_le r2
  change (refValue r).2 ≤ _ ∧ asc ';' ∉ (r.drop (refStart r)).take (refValue r).2 ∧ _ at h
  refine ⟨?_, ?_⟩
  · have := h.1
    rw [List.length_drop] at this
    omega
  · rw [List.take_add]
    simp only [List.mem_append, not_or]
    refine ⟨?_, h.2.1⟩
    unfold refStart
    rw [hr]
    cases r2 with
    | nil => rw [if_neg (by decide)]; decide
    | cons x r =>
      split
      · rename_i hx
        have : x = asc 'x' := by simpa using hx
        rw [this]
        show asc ';' ∉ [asc '&', asc '#', asc 'x']
        decide
      · show asc ';' ∉ [asc '&', asc '#']
        decide

theorem charReference_spec (d r r2 t : List Byte) (hr : r = asc '&' :: asc '#' :: r2) (h0 : (0 : Byte) ∉ r) :
    (toInt32 (refValue r).1 = 0 ∨ (r.drop (refStart r + (refValue r).2)).headD 0 ≠ asc ';') ∧
      charReference (d ++ (r ++ 0 :: t)) d.length = .ok (d ++ (r ++ 0 :: t), d.length + 1) ∨
    ∃ t', r = r.take (refStart r + (refValue r).2) ++ asc ';' :: r.drop (refStart r + (refValue r).2 + 1) ∧
      charReference (d ++ (r ++ 0 :: t)) d.length =
        .ok ((d ++ charBytes (toInt32 (refValue r).1)) ++ (r.drop (refStart r + (refValue r).2 + 1) ++ 0 :: t'), (d ++ charBytes (toInt32 (refValue r).1)).length) := by
  obtain ⟨hu, hsemi⟩ := refUsed_le r2 r hr
  have hstart : (if (r.drop 2).headD 0 = asc 'x' then d.length + 3 else d.length + 2) = d.length + refStart r := by
    unfold refStart; split <;> rfl
  have hsl : refStart r ≤ r.length := by omega
  unfold charReference
  rw [rd_text d r t 2 (by rw [hr]; simp), Res.ok_bind, hstart]
  simp only []
  rw [strAt_spec d r t _ hsl h0, Res.ok_bind]
  change ((_ ∧ (do
    let e ← rd (d ++ (r ++ 0 :: t)) (d.length + refStart r + (refValue r).2)
    if toInt32 (refValue r).1 = 0 ∨ e ≠ asc ';' then Res.ok (d ++ (r ++ 0 :: t), d.length + 1)
    else do
      let p ← putChar (d ++ (r ++ 0 :: t)) d.length (toInt32 (refValue r).1)
      let mem ← cutReference p.1 p.2
      Res.ok (mem, p.2)) = _) ∨ ∃ t', _ ∧ (do
    let e ← rd (d ++ (r ++ 0 :: t)) (d.length + refStart r + (refValue r).2)
    if toInt32 (refValue r).1 = 0 ∨ e ≠ asc ';' then Res.ok (d ++ (r ++ 0 :: t), d.length + 1)
    else do
      let p ← putChar (d ++ (r ++ 0 :: t)) d.length (toInt32 (refValue r).1)
      let mem ← cutReference p.1 p.2
      Res.ok (mem, p.2)) = _)
  rw [Nat.add_assoc, rd_text d r t _ hu, Res.ok_bind]
  by_cases hc : toInt32 (refValue r).1 = 0 ∨ (r.drop (refStart r + (refValue r).2)).headD 0 ≠ asc ';'
  · exact .inl ⟨hc, by rw [if_pos hc]⟩
  · right
    rw [if_neg hc]
    simp only [not_or, Classical.not_not] at hc
    have hw := width_le r _ rfl
    generalize hk : refStart r + (refValue r).2 = k at *
    generalize toInt32 (refValue r).1 = c at *
    have hkl : k < r.length := by
      apply Nat.lt_of_not_le
      intro hle
      rw [List.drop_eq_nil_of_le hle] at hc
      exact absurd hc.2 (by decide)
    have hsplit : r = r.take k ++ asc ';' :: r.drop (k + 1) := by
      have h2 := hc.2
      rw [List.drop_eq_getElem_cons hkl] at h2
      conv => lhs; rw [← List.take_append_drop k r, List.drop_eq_getElem_cons hkl]
      rw [show r[k] = asc ';' from h2]
    rw [putChar_spec c d (r ++ 0 :: t) (by simp; omega), Res.ok_bind]
    simp only []
    have e : (r ++ 0 :: t).drop (charBytes c).length = (r.take k).drop (charBytes c).length ++ asc ';' :: (r.drop (k + 1) ++ 0 :: t) := by
      conv => lhs; rw [hsplit]
      rw [List.append_assoc, List.drop_append]
      rw [show (charBytes c).length - (r.take k).length = 0 by rw [List.length_take]; omega]
      rfl
    obtain ⟨t', hcut⟩ := cut_spec ((r.take k).drop (charBytes c).length) (r.drop (k + 1)) t
      (fun h => h0 (List.mem_of_mem_take (List.mem_of_mem_drop h))) (fun h => hsemi (List.mem_of_mem_drop h)) (fun h => h0 (List.mem_of_mem_drop h))
    rw [e, cut_app _ _ _ hcut]
    exact ⟨t', hsplit, rfl⟩

/-! ### Steps -/

theorem step_end (junk : Nat → Byte) (ents : List (List Byte × List Byte)) (st : XmlState) (d t : List Byte) (own : Bool) :
    entityStep junk ents st (scan d [] t own) = .ok none := by
  unfold entityStep scan
  simp only [List.nil_append]
  rw [rd_app0]
  rfl

theorem step_ref (junk : Nat → Byte) (ents : List (List Byte × List Byte)) (st : XmlState) (d r2 t : List Byte) (own : Bool) (hst : st ≠ .cdata) :
    entityStep junk ents st (scan d (asc '&' :: asc '#' :: r2) t own) = (do
      let r ← charReference (d ++ ((asc '&' :: asc '#' :: r2) ++ 0 :: t)) d.length
      .ok (some ⟨r.1, own, r.2⟩)) := by
  unfold entityStep scan
  simp only []
  have e0 := rd_text d (asc '&' :: asc '#' :: r2) t 0 (by simp)
  have e1 := rd_text d (asc '&' :: asc '#' :: r2) t 1 (by simp)
  rw [Nat.add_zero] at e0
  rw [e0, Res.ok_bind, if_neg (show ¬ ((asc '&' :: asc '#' :: r2).drop 0).headD 0 = 0 from (show ¬ asc '&' = 0 by decide)), e1, Res.ok_bind]
  rw [if_pos ⟨hst, rfl, rfl⟩]

theorem step_other (junk : Nat → Byte) (ents : List (List Byte × List Byte)) (st : XmlState) (d r t : List Byte) (c : Byte) (own : Bool)
    (hc : c ≠ 0) (hn : ¬ (st ≠ .cdata ∧ c = asc '&' ∧ r.headD 0 = asc '#')) :
    entityStep junk ents st (scan d (c :: r) t own) = (
      if startsEntity st c then do
        match ← findEntity (d ++ ((c :: r) ++ 0 :: t)) (d.length + 1) ents with
        | none => .ok (some (scan (d ++ [c]) r t own))
        | some v =>
          let r ← replaceEntity junk (d ++ ((c :: r) ++ 0 :: t)) own d.length v
          .ok (some ⟨r.1, r.2, d.length⟩)
      else if (st = .attribute ∨ st = .token) ∧ isSpaceC c then .ok (some (scan (d ++ [0x20]) r t own))
      else .ok (some (scan (d ++ [c]) r t own))) := by
  unfold entityStep
  have e0 := rd_text d (c :: r) t 0 (by simp)
  have e1 := rd_text d (c :: r) t 1 (by simp)
  rw [Nat.add_zero] at e0
  rw [show (scan d (c :: r) t own).mem = d ++ ((c :: r) ++ 0 :: t) from rfl, show (scan d (c :: r) t own).xml = d.length from rfl,
    show (scan d (c :: r) t own).own = own from rfl]
  rw [e0, Res.ok_bind, if_neg (by exact hc), e1, Res.ok_bind, if_neg (by exact hn)]
  have hw : wr (d ++ ((c :: r) ++ 0 :: t)) d.length 0x20 = .ok ((d ++ [0x20]) ++ (r ++ 0 :: t)) := by
    rw [List.cons_append, wr_at]; simp
  rw [← scan_next]
  have hs2 : scan (d ++ [0x20]) r t own = ⟨(d ++ [0x20]) ++ (r ++ 0 :: t), own, d.length + 1⟩ := by
    unfold scan; simp
  rw [hs2]
  rw [show List.headD ((c :: r).drop 0) 0 = c from rfl]
  rw [hw, Res.ok_bind]
  by_cases hse : startsEntity st c = true
  · rw [if_pos hse, if_pos hse]
    cases findEntity (d ++ ((c :: r) ++ 0 :: t)) (d.length + 1) ents with
    | ok o => cases o <;> rfl
    | ub => rfl
    | fatal => rfl
  · rw [if_neg hse, if_neg hse]

theorem not_space_digit (base : Nat) (hb : base = 10 ∨ base = 16) (c : Byte) (h : digitVal c < base) :
    isSpaceC c = false ∧ (c == asc '-' || c == asc '+') = false ∧ c ≠ asc 'x' ∧ c ≠ asc 'X' ∧ c ≠ 0 ∧ c ≠ asc ';' := by
  have key : ∀ c : Byte, digitVal c < 16 → isSpaceC c = false ∧ (c == asc '-' || c == asc '+') = false ∧ c ≠ asc 'x' ∧ c ≠ asc 'X' ∧ c ≠ 0 ∧ c ≠ asc ';' := by
    decide +kernel
  exact key c (by omega)

theorem strtol_digits (base : Nat) (hb : base = 10 ∨ base = 16) (ds rest : List Byte) (hne : ds ≠ []) (hd : ∀ c ∈ ds, digitVal c < base)
    (hv : digitsVal base ds < 2 ^ 63) : strtolC base (ds ++ asc ';' :: rest) = ((digitsVal base ds : Int), ds.length) := by
  cases ds with
  | nil => exact absurd rfl hne
  | cons c ds =>
    have hc := not_space_digit base hb c (hd c List.mem_cons_self)
    unfold strtolC
    simp only []
    have e1 : ((c :: ds) ++ asc ';' :: rest).takeWhile isSpaceC = [] := by
      rw [List.cons_append, List.takeWhile_cons, hc.1]; rfl
    rw [e1]
    simp only [List.length_nil, List.drop_zero]
    have e2 : ((c :: ds) ++ asc ';' :: rest).takeWhile (fun c => c == asc '-' || c == asc '+') = [] := by
      rw [List.cons_append, List.takeWhile_cons, hc.2.1]; rfl
    rw [e2]
    simp only [List.take_nil, List.length_nil, List.drop_zero]
    have e3 : (if base = 16 ∧ ((c :: ds) ++ asc ';' :: rest).head? = some (asc '0') ∧ (((c :: ds) ++ asc ';' :: rest)[1]? = some (asc 'x') ∨ ((c :: ds) ++ asc ';' :: rest)[1]? = some (asc 'X')) ∧ (((c :: ds) ++ asc ';' :: rest)[2]?.any (fun c => decide (digitVal c < 16))) = true then 2 else 0) = 0 := by
      rw [if_neg]
      rintro ⟨_, _, hx, _⟩
      cases ds with
      | nil =>
        have : asc ';' = asc 'x' ∨ asc ';' = asc 'X' := by simpa using hx
        revert this; decide
      | cons c2 ds =>
        have h2 := not_space_digit base hb c2 (hd c2 (by simp))
        have : c2 = asc 'x' ∨ c2 = asc 'X' := by simpa using hx
        rcases this with h | h
        · exact h2.2.2.1 h
        · exact h2.2.2.2.1 h
    rw [e3]
    simp only [List.drop_zero]
    have e4 : ((c :: ds) ++ asc ';' :: rest).takeWhile (fun c => decide (digitVal c < base)) = c :: ds := by
      rw [List.takeWhile_append_of_pos (fun x hx => by simpa using hd x hx), List.takeWhile_cons]
      rw [if_neg (by have := digit_semi; simp; omega), List.append_nil]
    rw [e4, if_neg (by simp), if_neg (by decide)]
    congr 1
    · omega
    · simp

theorem toInt32_small (n : Nat) (h : n < 2 ^ 31) : toInt32 n = n := by
  unfold toInt32
  rw [BitVec.toInt_ofInt, Int.bmod_def]
  simp only [Nat.reducePow] at *
  omega

/-- A character reference stands for its character. -/
theorem step_char (junk : Nat → Byte) (ents : List (List Byte × List Byte)) (st : XmlState) (d ds tail t : List Byte) (own hex : Bool) (hst : st ≠ .cdata)
    (hne : ds ≠ []) (hd : ∀ c ∈ ds, digitVal c < if hex then 16 else 10) (h0 : digitsVal (if hex then 16 else 10) ds ≠ 0)
    (hv : digitsVal (if hex then 16 else 10) ds < 0x110000) (ht : (0 : Byte) ∉ tail) :
    ∃ t', entityStep junk ents st (scan d (asc '&' :: asc '#' :: ((if hex then [asc 'x'] else []) ++ ds ++ asc ';' :: tail)) t own) =
      .ok (some (scan (d ++ Spec.Utf.utf8Char (digitsVal (if hex then 16 else 10) ds)) tail t' own)) := by
  rw [step_ref junk ents st d _ t own hst]
  generalize hr2 : (if hex then [asc 'x'] else []) ++ ds ++ asc ';' :: tail = r2
  have hb : (if hex then 16 else 10) = 10 ∨ (if hex then 16 else 10) = 16 := by cases hex <;> simp
  have hdd := fun c hc => not_space_digit _ hb c (hd c hc)
  have hr0 : (0 : Byte) ∉ asc '&' :: asc '#' :: r2 := by
    rw [← hr2]
    simp only [List.mem_cons, List.mem_append, not_or]
    refine ⟨by decide, by decide, ⟨?_, fun h => (hdd 0 h).2.2.2.2.1 rfl⟩, by decide, ht⟩
    cases hex
    · simp
    · show (0 : Byte) ∉ [asc 'x']; decide
  have hx : (((asc '&' :: asc '#' :: r2).drop 2).headD 0 = asc 'x') ↔ hex = true := by
    rw [← hr2]
    cases hex with
    | true => exact ⟨fun _ => rfl, fun _ => rfl⟩
    | false =>
      refine ⟨fun h => ?_, fun h => by cases h⟩
      cases ds with
      | nil => exact absurd rfl hne
      | cons c ds => exact absurd h (hdd c List.mem_cons_self).2.2.1
  have hs : refStart (asc '&' :: asc '#' :: r2) = if hex then 3 else 2 := by
    unfold refStart
    cases hex with
    | true => rw [if_pos (hx.mpr rfl)]; rfl
    | false => rw [if_neg (fun h => by have := hx.mp h; cases this)]; rfl
  have hdrop : (asc '&' :: asc '#' :: r2).drop (refStart (asc '&' :: asc '#' :: r2)) = ds ++ asc ';' :: tail := by
    rw [hs, ← hr2]
    cases hex <;> rfl
  have hval : refValue (asc '&' :: asc '#' :: r2) = ((digitsVal (if hex then 16 else 10) ds : Int), ds.length) := by
    unfold refValue
    rw [hdrop]
    have : (if ((asc '&' :: asc '#' :: r2).drop 2).headD 0 = asc 'x' then 16 else 10) = if hex then 16 else 10 := by
      cases hex with
      | true => rw [if_pos (hx.mpr rfl)]; rfl
      | false => rw [if_neg (fun h => by have := hx.mp h; cases this)]; rfl
    rw [this]
    exact strtol_digits _ hb ds tail hne hd (by omega)
  have hint : toInt32 (refValue (asc '&' :: asc '#' :: r2)).1 = (digitsVal (if hex then 16 else 10) ds : Nat) := by
    rw [hval]; exact toInt32_small _ (by omega)
  have hend : (asc '&' :: asc '#' :: r2).drop (refStart (asc '&' :: asc '#' :: r2) + (refValue (asc '&' :: asc '#' :: r2)).2) = asc ';' :: tail := by
    rw [← List.drop_drop, hdrop, hval, List.drop_left' rfl]
  rcases charReference_spec d (asc '&' :: asc '#' :: r2) r2 t rfl hr0 with ⟨hbad, _⟩ | ⟨t', _, h⟩
  · exfalso
    rcases hbad with h | h
    · rw [hint] at h; omega
    · rw [hend] at h; exact h rfl
  · refine ⟨t', ?_⟩
    rw [h, Res.ok_bind, hint, charBytes_utf8 _ hv, ← List.drop_drop, hend]
    rfl

end Wizard.XmlP

import Verif.Model.Path
import Verif.Spec.Path
import Verif.Props.Copy
import Verif.Props.Option
import Verif.Lemmas.Xml
/-! C57: the components of paths. -/
namespace Wizard.Props
open Wizard Wizard.Spec.Path

/-! ### Scanning backwards -/

theorem backTo_stop {stop : Byte → Bool} (a b t : List Byte) (c : Byte) (hc : stop c = true) (hb : ∀ x ∈ b, stop x = false) : ∀ n, n ≤ b.length →
    backTo stop (a ++ c :: b ++ t) (a.length + n) = .ok a.length := by
  intro n
  induction n with
  | zero =>
    intro _
    cases ha : a.length with
    | zero => rfl
    | succ k =>
      unfold backTo
      have : rd (a ++ c :: b ++ t) (k + 1) = .ok c := by rw [← ha]; unfold rd; simp
      rw [Nat.add_zero, this, Res.ok_bind, if_pos hc]
  | succ n ih =>
    intro hn
    rw [← Nat.add_assoc]
    unfold backTo
    have : rd (a ++ c :: b ++ t) (a.length + n + 1) = .ok (b[n]) := by
      unfold rd
      rw [List.append_assoc, List.getElem?_append_right (by omega), show a.length + n + 1 - a.length = n + 1 by omega, List.cons_append, List.getElem?_cons_succ,
        List.getElem?_append_left (by omega), List.getElem?_eq_getElem (by omega)]
    rw [this, Res.ok_bind, if_neg (by rw [hb _ (List.getElem_mem _)]; simp), ih (by omega)]

theorem backTo_none {stop : Byte → Bool} (s t : List Byte) (hs : ∀ x ∈ s, stop x = false) : ∀ p, p < s.length → backTo stop (s ++ t) p = .ok 0 := by
  intro p
  induction p with
  | zero => intro _; rfl
  | succ p ih =>
    intro hp
    unfold backTo
    have : rd (s ++ t) (p + 1) = .ok (s[p + 1]) := by
      unfold rd; rw [List.getElem?_append_left hp, List.getElem?_eq_getElem hp]
    rw [this, Res.ok_bind, if_neg (by rw [hs _ (List.getElem_mem _)]; simp), ih (by omega)]

/-- The last byte that satisfies a test. -/
theorem last_split (stop : Byte → Bool) : ∀ (n : Nat) (s : List Byte), s.length ≤ n → (∀ x ∈ s, stop x = false) ∨ ∃ a c b, s = a ++ c :: b ∧ stop c = true ∧ ∀ x ∈ b, stop x = false := by
  intro n
  induction n with
  | zero => intro s h; left; have : s = [] := by simpa using h
            subst this; simp
  | succ n ih =>
    intro s h
    cases s with
    | nil => left; simp
    | cons x s =>
      rcases ih s (by simpa using h) with h1 | ⟨a, c, b, rfl, hc, hb⟩
      · cases hx : stop x with
        | true => exact .inr ⟨[], x, s, rfl, hx, h1⟩
        | false =>
          left
          intro y hy
          rcases List.mem_cons.mp hy with rfl | hy
          · exact hx
          · exact h1 y hy
      · exact .inr ⟨x :: a, c, b, rfl, hc, hb⟩

theorem backTo_end {stop : Byte → Bool} (s t : List Byte) (hne : s ≠ []) :
    ((∀ x ∈ s, stop x = false) → backTo stop (s ++ t) (s.length - 1) = .ok 0) ∧
    ∀ a c b, s = a ++ c :: b → stop c = true → (∀ x ∈ b, stop x = false) → backTo stop (s ++ t) (s.length - 1) = .ok a.length := by
  have hl := List.length_pos_iff.mpr hne
  refine ⟨fun h => backTo_none s t h _ (by omega), ?_⟩
  intro a c b hs hc hb
  subst hs
  rw [show (a ++ c :: b).length - 1 = a.length + b.length by simp]
  exact backTo_stop a b t c hc hb _ (Nat.le_refl _)

/-! ### The parts of a path -/

theorem copy_path (mem s t : List Byte) (h0 : (0 : Byte) ∉ s) (hl : s.length < wizardPathExtent) (hm : wizardPathExtent ≤ mem.length) :
    ∃ rest r, copyWizardString mem (s ++ 0 :: t) wizardPathExtent = .ok (s ++ 0 :: rest, r) ∧ (s ++ 0 :: rest).length = mem.length := by
  obtain ⟨r, h⟩ := C05_copy mem s t wizardPathExtent h0 (by decide) hm
  rw [List.take_of_length_le (by omega), Nat.min_eq_left (by omega)] at h
  exact ⟨_, r, h, by simp; omega⟩

theorem shiftPath_spec (f u rest : List Byte) (h0 : (0 : Byte) ∉ f ++ asc ':' :: u) (hroom : f.length + 1 + (f ++ asc ':' :: u).length ≤ (f ++ asc ':' :: u ++ 0 :: rest).length) :
    ∃ rest', shiftPath (f ++ asc ':' :: u ++ 0 :: rest) f.length = .ok (u ++ 0 :: rest') ∧ (u ++ 0 :: rest').length = (f ++ asc ':' :: u ++ 0 :: rest).length := by
  unfold shiftPath
  rw [strlenMem_text _ _ h0, Res.ok_bind]
  unfold rdN
  rw [if_pos hroom, Res.ok_bind]
  have e : (f ++ asc ':' :: u ++ 0 :: rest).drop (f.length + 1) = u ++ 0 :: rest := by
    rw [show f ++ asc ':' :: u ++ 0 :: rest = (f ++ [asc ':']) ++ (u ++ 0 :: rest) by simp, List.drop_left' (by simp)]
  have e2 : (u ++ 0 :: rest).take (f ++ asc ':' :: u).length = u ++ 0 :: rest.take f.length := by
    rw [show (f ++ asc ':' :: u).length = u.length + (f.length + 1) by simp; omega, List.take_append, List.take_of_length_le (by omega),
      show u.length + (f.length + 1) - u.length = f.length + 1 by omega, List.take_succ_cons]
  have hb : (u ++ 0 :: rest.take f.length).length = (f ++ asc ':' :: u).length := by
    simp at hroom ⊢; omega
  rw [e, e2]
  unfold wrN
  rw [hb, Nat.zero_add, if_pos (by omega), List.take_zero, List.nil_append]
  refine ⟨rest.take f.length ++ (f ++ asc ':' :: u ++ 0 :: rest).drop (f ++ asc ':' :: u).length, by simp, ?_⟩
  simp at hroom ⊢; omega

theorem splitFilesystem_spec {found : List Byte → Bool} {s f u : List Byte} (rest : List Byte) (h0 : (0 : Byte) ∉ s) (hl : s.length < wizardPathExtent) (hd : Drive found s f u)
    (hroom : u = s ∨ f.length + 1 + s.length ≤ (s ++ 0 :: rest).length) :
    ∃ rest', splitFilesystem found s (s ++ 0 :: rest) = .ok (u ++ 0 :: rest', f) ∧ (u ++ 0 :: rest').length = (s ++ 0 :: rest).length := by
  have hcopy : ∀ d r, s = d ++ asc ':' :: r → ∃ ret, copyWizardString (List.replicate wizardPathExtent 0) (s ++ 0 :: rest) (d.length + 1) =
      .ok (d ++ 0 :: (List.replicate wizardPathExtent (0 : Byte)).drop (d.length + 1), ret) := by
    intro d r hs
    have hdl : d.length < s.length := by rw [hs]; simp
    obtain ⟨ret, h⟩ := C05_copy (List.replicate wizardPathExtent 0) s rest (d.length + 1) h0 (by omega) (by simp; omega)
    rw [Nat.add_sub_cancel, Nat.min_eq_right (by omega), show s.take d.length = d by rw [hs, List.take_left' rfl]] at h
    exact ⟨ret, h⟩
  have hd0 : ∀ d r, s = d ++ asc ':' :: r → (0 : Byte) ∉ d := fun d r hs h => h0 (by rw [hs]; exact List.mem_append_left _ h)
  unfold splitFilesystem
  rcases hd with ⟨rfl, rfl, hcase⟩ | ⟨hs, hf, hnf, hex⟩
  · refine ⟨rest, ?_, rfl⟩
    rcases XmlP.strchr_text (c := asc ':') (by decide) u rest h0 with ⟨hno, h⟩ | ⟨m, tail, hs, hm, h⟩
    · rw [h]; rfl
    · rw [h, Res.ok_bind]
      simp only []
      cases hfd : found u with
      | true => rfl
      | false =>
        simp only [Bool.false_eq_true, if_false]
        rcases hcase with hc | hc | ⟨d, r, hs2, hd, hdne, hdf⟩
        · exact absurd (by rw [hs]; simp) hc
        · rw [hfd] at hc; cases hc
        · have : m = d := by
            have h1 : u.takeWhile (· != asc ':') = m := by
              rw [hs, List.takeWhile_append_of_pos (by
                intro x hx
                simpa using fun e => hm (by rw [← e]; exact hx)), List.takeWhile_cons_of_neg (by simp), List.append_nil]
            have h2 : u.takeWhile (· != asc ':') = d := by
              rw [hs2, List.takeWhile_append_of_pos (by
                intro x hx
                simpa using fun e => hd (by rw [← e]; exact hx)), List.takeWhile_cons_of_neg (by simp), List.append_nil]
            rw [← h1, h2]
          subst this
          obtain ⟨ret, hcp⟩ := hcopy m tail hs
          rw [hcp, Res.ok_bind]
          simp only []
          rw [textOf_text _ _ (hd0 m tail hs), if_pos ⟨hdne, hdf⟩]
  · have h : strchrMem (asc ':') (s ++ 0 :: rest) = .ok (some f.length) := by
      rw [hs, List.append_assoc, List.cons_append]
      exact strchrMem_some f _ (hd0 f u hs) hf
    rw [h, Res.ok_bind]
    simp only []
    rw [hnf]
    simp only [Bool.false_eq_true, if_false]
    obtain ⟨ret, hcp⟩ := hcopy f u hs
    rw [hcp, Res.ok_bind]
    simp only []
    rw [textOf_text _ _ (hd0 f u hs), if_neg (by rintro ⟨h1, h2⟩; rcases hex with e | e; exact h1 e; rw [e] at h2; cases h2)]
    have hr : f.length + 1 + s.length ≤ (s ++ 0 :: rest).length := by
      rcases hroom with e | h
      · have := congrArg List.length hs
        rw [e] at this
        simp at this
        omega
      · exact h
    subst hs
    obtain ⟨rest', hsh, hlen⟩ := shiftPath_spec f u rest h0 hr
    rw [hsh, Res.ok_bind]
    exact ⟨rest', rfl, hlen⟩

theorem splitSubnode_spec {u v sub : List Byte} (rest : List Byte) (h0 : (0 : Byte) ∉ u) (hl : u.length < wizardPathExtent) (hs : Subnode u v sub) :
    ∃ rest', splitSubnode (u ++ 0 :: rest) = .ok (v ++ 0 :: rest', sub) ∧ (v ++ 0 :: rest').length = (u ++ 0 :: rest).length := by
  unfold splitSubnode
  rw [strlenMem_text _ _ h0, Res.ok_bind]
  simp only []
  rcases hs with ⟨rfl, rfl, hno⟩ | ⟨rfl, hb⟩
  · refine ⟨rest, ?_, rfl⟩
    have hrd : ∃ c, rd (v ++ 0 :: rest) (v.length - 1) = .ok c ∧ (c = asc ']' → ∃ w, v = w ++ [asc ']']) := by
      cases hv : v.getLast? with
      | none =>
        have : v = [] := by simpa using hv
        subst this
        exact ⟨0, rfl, fun h => absurd h (by decide)⟩
      | some x =>
        obtain ⟨ys, rfl⟩ := List.getLast?_eq_some_iff.mp hv
        refine ⟨x, by unfold rd; simp, fun h => ⟨ys, by rw [h]⟩⟩
    obtain ⟨c, hc, hcc⟩ := hrd
    rw [hc, Res.ok_bind]
    rcases XmlP.strchr_text (c := asc '[') (by decide) v rest h0 with ⟨_, h⟩ | ⟨m, tail, hs, hm, h⟩
    · rw [h, Res.ok_bind, if_neg (by simp)]
    · rw [h, Res.ok_bind, if_neg]
      rintro ⟨e, _⟩
      obtain ⟨w, hw⟩ := hcc e
      have : asc '[' ∈ w := by
        have : asc '[' ∈ v := by rw [hs]; simp
        rw [hw] at this
        rcases List.mem_append.mp this with h | h
        · exact h
        · exact absurd (List.mem_singleton.mp h) (by decide)
      obtain ⟨a, t, rfl⟩ := List.append_of_mem this
      exact hno ⟨a, t, hw⟩
  · have hmem : v ++ asc '[' :: sub ++ [asc ']'] ++ 0 :: rest = v ++ asc '[' :: sub ++ (asc ']' :: 0 :: rest) := by simp
    have hv0 : (0 : Byte) ∉ v := fun h => h0 (by simp only [List.append_assoc, List.mem_append]; exact .inl h)
    have hs0 : (0 : Byte) ∉ sub := fun h => h0 (by
      simp only [List.append_assoc, List.mem_append, List.cons_append, List.mem_cons]; exact .inr (.inr (.inl h)))
    have hr1 : rd (v ++ asc '[' :: sub ++ [asc ']'] ++ 0 :: rest) ((v ++ asc '[' :: sub ++ [asc ']']).length - 1) = .ok (asc ']') := by
      unfold rd; simp
    rw [hr1, Res.ok_bind]
    have hopen : ∃ k, strchrMem (asc '[') (v ++ asc '[' :: sub ++ [asc ']'] ++ 0 :: rest) = .ok (some k) := by
      rcases XmlP.strchr_text (c := asc '[') (by decide) (v ++ asc '[' :: sub ++ [asc ']']) rest h0 with ⟨hno, h⟩ | ⟨m, tail, hs, hm, h⟩
      · exact absurd (by simp) hno
      · exact ⟨_, h⟩
    obtain ⟨k, hk⟩ := hopen
    rw [hk, Res.ok_bind, if_pos ⟨rfl, by simp⟩]
    rw [show (v ++ asc '[' :: sub ++ [asc ']']).length - 1 - 1 = v.length + sub.length by simp, hmem]
    rw [backTo_stop v sub _ (asc '[') (by simp) (by
      intro x hx
      simpa using fun e => hb (by rw [← e]; exact hx)) sub.length (Nat.le_refl _), Res.ok_bind]
    unfold cutSubnode
    have hr2 : rd (v ++ asc '[' :: sub ++ (asc ']' :: 0 :: rest)) v.length = .ok (asc '[') := by unfold rd; simp
    rw [hr2, Res.ok_bind, if_pos rfl]
    have hdrop : (v ++ asc '[' :: sub ++ (asc ']' :: 0 :: rest)).drop (v.length + 1) = (sub ++ [asc ']']) ++ 0 :: rest := by
      rw [show v ++ asc '[' :: sub ++ (asc ']' :: 0 :: rest) = (v ++ [asc '[']) ++ (sub ++ [asc ']'] ++ 0 :: rest) by simp, List.drop_left' (by simp)]
    have hsl : (sub ++ [asc ']']).length < wizardPathExtent := by simp at hl ⊢; omega
    have hsb0 : (0 : Byte) ∉ sub ++ [asc ']'] := by
      simp only [List.mem_append, List.mem_singleton, not_or]; exact ⟨hs0, by decide⟩
    obtain ⟨rest1, r, hcp, _⟩ := copy_path (List.replicate wizardPathExtent 0) (sub ++ [asc ']']) rest hsb0 hsl (by simp)
    rw [hdrop, hcp, Res.ok_bind]
    simp only []
    rw [show (v ++ asc '[' :: sub ++ [asc ']']).length - 1 - v.length - 1 = sub.length by simp,
      show sub ++ [asc ']'] ++ 0 :: rest1 = sub ++ asc ']' :: 0 :: rest1 by simp, wr_at, Res.ok_bind,
      show v ++ asc '[' :: sub ++ (asc ']' :: 0 :: rest) = v ++ asc '[' :: (sub ++ (asc ']' :: 0 :: rest)) by simp, wr_at, Res.ok_bind,
      textOf_text _ _ hs0]
    exact ⟨sub ++ asc ']' :: 0 :: rest, by simp, by simp⟩

/-! ### Each component -/

theorem lastSeparator_slash (h t rest : List Byte) (h0 : (0 : Byte) ∉ h ++ asc '/' :: t) (ht : asc '/' ∉ t) : lastSeparator (h ++ asc '/' :: t ++ 0 :: rest) = .ok h.length := by
  unfold lastSeparator
  rw [strlenMem_text _ _ h0, Res.ok_bind]
  refine (backTo_end (h ++ asc '/' :: t) (0 :: rest) (by simp)).2 h (asc '/') t rfl (by decide) ?_
  intro x hx
  unfold isSeparator
  simpa using fun e => ht (by rw [← e]; exact hx)

theorem lastSeparator_none (v rest : List Byte) (h0 : (0 : Byte) ∉ v) (hv : asc '/' ∉ v) : lastSeparator (v ++ 0 :: rest) = .ok 0 := by
  unfold lastSeparator
  rw [strlenMem_text _ _ h0, Res.ok_bind]
  by_cases hne : v = []
  · subst hne; rfl
  · refine (backTo_end v (0 :: rest) hne).1 ?_
    intro x hx
    unfold isSeparator
    simpa using fun e => hv (by rw [← e]; exact hx)

/-- The component is `x`, and the memory is the caller's. -/
def Gives (found : List Byte → Bool) (path : List Byte) (type : PathType) (mem x : List Byte) : Prop :=
  ∃ m, getPathComponent found path type mem = .ok m ∧ textOf m = x ∧ m.length = mem.length

/-- The first steps, common to all components. -/
theorem prepare {found : List Byte → Bool} {path mem f u v sub : List Byte} (hne : path ≠ []) (h0 : (0 : Byte) ∉ path) (hl : path.length < wizardPathExtent)
    (hm : wizardPathExtent ≤ mem.length) (hd : Drive found path f u) (hroom : u = path ∨ f.length + 1 + path.length ≤ mem.length) (hs : Subnode u v sub) (type : PathType) :
    (0 : Byte) ∉ v ∧ (0 : Byte) ∉ f ∧ (0 : Byte) ∉ sub ∧ v.length < wizardPathExtent ∧ f.length < wizardPathExtent ∧ sub.length < wizardPathExtent ∧
    ∃ rest, (v ++ 0 :: rest).length = mem.length ∧
      getPathComponent found path type mem = (do let p ← lastSeparator (v ++ 0 :: rest); selectPath type (v ++ 0 :: rest) f sub p) := by
  have hu : (0 : Byte) ∉ u ∧ u.length < wizardPathExtent ∧ (0 : Byte) ∉ f ∧ f.length < wizardPathExtent := by
    rcases hd with ⟨rfl, rfl, _⟩ | ⟨hp, _⟩
    · exact ⟨h0, hl, by simp, by decide⟩
    · rw [hp] at h0 hl
      simp only [List.mem_append, List.mem_cons, not_or] at h0
      simp at hl
      exact ⟨h0.2.2, by omega, h0.1, by omega⟩
  have hv : (0 : Byte) ∉ v ∧ v.length < wizardPathExtent ∧ (0 : Byte) ∉ sub ∧ sub.length < wizardPathExtent := by
    rcases hs with ⟨rfl, rfl, _⟩ | ⟨hp, _⟩
    · exact ⟨hu.1, hu.2.1, by simp, by decide⟩
    · have h1 := hu.1
      have h2 := hu.2.1
      rw [hp] at h1 h2
      simp only [List.append_assoc, List.cons_append, List.mem_append, List.mem_cons, not_or] at h1
      simp at h2
      exact ⟨h1.1, by omega, h1.2.2.1, by omega⟩
  obtain ⟨rest1, r, hcp, hlen1⟩ := copy_path mem path [] h0 hl hm
  obtain ⟨rest2, hfs, hlen2⟩ := splitFilesystem_spec rest1 h0 hl hd (by rw [hlen1]; exact hroom)
  obtain ⟨rest3, hsb, hlen3⟩ := splitSubnode_spec rest2 hu.1 hu.2.1 hs
  refine ⟨hv.1, hu.2.2.1, hv.2.2.1, hv.2.1, hu.2.2.2, hv.2.2.2, rest3, by omega, ?_⟩
  unfold getPathComponent
  rw [if_neg hne, hcp, Res.ok_bind]
  simp only []
  rw [hfs, Res.ok_bind]
  simp only []
  rw [hsb, Res.ok_bind]

theorem putText_spec (mem s : List Byte) (h0 : (0 : Byte) ∉ s) (hl : s.length < wizardPathExtent) (hm : wizardPathExtent ≤ mem.length) :
    ∃ m, putText mem s = .ok m ∧ textOf m = s ∧ m.length = mem.length := by
  obtain ⟨rest, r, h, hlen⟩ := copy_path mem s [] h0 hl hm
  unfold putText
  rw [h, Res.ok_bind]
  exact ⟨_, rfl, textOf_text _ _ h0, hlen⟩

theorem nameOnly_slash (h t rest : List Byte) (h0 : (0 : Byte) ∉ t) (hl : t.length < wizardPathExtent) (hm : wizardPathExtent ≤ (h ++ asc '/' :: t ++ 0 :: rest).length) :
    ∃ rest', nameOnly (h ++ asc '/' :: t ++ 0 :: rest) h.length = .ok (t ++ 0 :: rest') ∧ (t ++ 0 :: rest').length = (h ++ asc '/' :: t ++ 0 :: rest).length := by
  unfold nameOnly
  have hr : rd (h ++ asc '/' :: t ++ 0 :: rest) h.length = .ok (asc '/') := by unfold rd; simp
  rw [hr, Res.ok_bind, if_pos (by decide)]
  have hdrop : (h ++ asc '/' :: t ++ 0 :: rest).drop (h.length + 1) = t ++ 0 :: rest := by
    rw [show h ++ asc '/' :: t ++ 0 :: rest = (h ++ [asc '/']) ++ (t ++ 0 :: rest) by simp, List.drop_left' (by simp)]
  obtain ⟨rest', r, hc, hlen⟩ := copy_path (h ++ asc '/' :: t ++ 0 :: rest) t rest h0 hl hm
  rw [hdrop, hc, Res.ok_bind]
  exact ⟨rest', rfl, hlen⟩

theorem head_not (v rest : List Byte) (c : Byte) (hc : c ≠ 0) (hv : c ∉ v) : ∃ x, rd (v ++ 0 :: rest) 0 = .ok x ∧ x ≠ c := by
  cases v with
  | nil => exact ⟨0, rfl, fun e => hc e.symm⟩
  | cons y v => exact ⟨y, rfl, fun e => hv (by rw [e]; simp)⟩

theorem nameOnly_none (v rest : List Byte) (hv : asc '/' ∉ v) : nameOnly (v ++ 0 :: rest) 0 = .ok (v ++ 0 :: rest) := by
  unfold nameOnly
  obtain ⟨x, hx, hne⟩ := head_not v rest (asc '/') (by decide) hv
  rw [hx, Res.ok_bind, if_neg (by unfold isSeparator; simpa using hne)]

/-! ### Head and tail -/

theorem head_slash (h t rest : List Byte) : wr (h ++ asc '/' :: t ++ 0 :: rest) h.length 0 = .ok (h ++ 0 :: (t ++ 0 :: rest)) := by
  rw [List.append_assoc, List.cons_append, wr_at]

theorem tail_slash (h t rest : List Byte) (h0 : (0 : Byte) ∉ t) :
    ∃ rest', tailPath (h ++ asc '/' :: t ++ 0 :: rest) h.length = .ok (t ++ 0 :: rest') ∧ (t ++ 0 :: rest').length = (h ++ asc '/' :: t ++ 0 :: rest).length := by
  unfold tailPath
  have hr : rd (h ++ asc '/' :: t ++ 0 :: rest) h.length = .ok (asc '/') := by unfold rd; simp
  have hdrop : (h ++ asc '/' :: t ++ 0 :: rest).drop (h.length + 1) = t ++ 0 :: rest := by
    rw [show h ++ asc '/' :: t ++ 0 :: rest = (h ++ [asc '/']) ++ (t ++ 0 :: rest) by simp, List.drop_left' (by simp)]
  rw [hr, Res.ok_bind, if_pos (by decide), hdrop, strlenMem_text _ _ h0, Res.ok_bind]
  unfold rdN
  rw [if_pos (by simp; omega), Res.ok_bind, hdrop, show t ++ 0 :: rest = (t ++ [0]) ++ rest by simp, List.take_left' (by simp)]
  unfold wrN
  rw [if_pos (by simp; omega), List.take_zero, List.nil_append]
  exact ⟨_, by rw [List.append_assoc]; rfl, by simp; omega⟩

theorem tail_none (v rest : List Byte) (hv : asc '/' ∉ v) : tailPath (v ++ 0 :: rest) 0 = .ok (v ++ 0 :: rest) := by
  unfold tailPath
  obtain ⟨x, hx, hne⟩ := head_not v rest (asc '/') (by decide) hv
  rw [hx, Res.ok_bind, if_neg (by unfold isSeparator; simpa using hne)]

/-- **C57** The marked parts: for every path, whatever exists in the file system, the filesystem is what is before its colon, the
subnode what is between the brackets at the end, and the canonical path the rest. -/
theorem C57_marks (found : List Byte → Bool) (path mem f u v sub : List Byte) (hne : path ≠ []) (h0 : (0 : Byte) ∉ path) (hl : path.length < wizardPathExtent)
    (hm : wizardPathExtent ≤ mem.length) (hd : Drive found path f u) (hroom : u = path ∨ f.length + 1 + path.length ≤ mem.length) (hs : Subnode u v sub) :
    Gives found path .filesystem mem f ∧ Gives found path .subnode mem sub ∧ Gives found path .canonical mem v := by
  have hp := prepare hne h0 hl hm hd hroom hs
  have hsep : ∀ rest, (0 : Byte) ∉ v → ∃ p, lastSeparator (v ++ 0 :: rest) = .ok p := by
    intro rest hv0
    rcases last_split isSeparator _ v (Nat.le_refl _) with h | ⟨a, c, b, rfl, hc, hb⟩
    · refine ⟨0, lastSeparator_none v rest hv0 (fun hx => ?_)⟩
      have := h _ hx
      revert this; decide
    · have : c = asc '/' := by unfold isSeparator at hc; simpa using hc
      subst this
      refine ⟨a.length, lastSeparator_slash a b rest hv0 (fun hx => ?_)⟩
      have := hb _ hx
      revert this; decide
  refine ⟨?_, ?_, ?_⟩
  · obtain ⟨hv0, hf0, hs0, hvl, hfl, hsl, rest, hlen, hg⟩ := hp .filesystem
    obtain ⟨p, hsp⟩ := hsep rest hv0
    obtain ⟨m, hm1, hm2, hm3⟩ := putText_spec (v ++ 0 :: rest) f hf0 hfl (by omega)
    exact ⟨m, by rw [hg, hsp, Res.ok_bind]; exact hm1, hm2, by omega⟩
  · obtain ⟨hv0, hf0, hs0, hvl, hfl, hsl, rest, hlen, hg⟩ := hp .subnode
    obtain ⟨p, hsp⟩ := hsep rest hv0
    obtain ⟨m, hm1, hm2, hm3⟩ := putText_spec (v ++ 0 :: rest) sub hs0 hsl (by omega)
    exact ⟨m, by rw [hg, hsp, Res.ok_bind]; exact hm1, hm2, by omega⟩
  · obtain ⟨hv0, hf0, hs0, hvl, hfl, hsl, rest, hlen, hg⟩ := hp .canonical
    obtain ⟨p, hsp⟩ := hsep rest hv0
    exact ⟨_, by rw [hg, hsp, Res.ok_bind]; rfl, textOf_text _ _ hv0, hlen⟩

/-- **C57** (partial) Head and tail: if the canonical path has a separator, the head is what is before the last one and the tail what is
behind it, so that both joined by the separator are the path; otherwise the head is empty and the tail is the path.  Missing: the two
cases cannot be told apart when the head is empty (`C57_absolute_violated`). -/
theorem C57_head_tail_partial (found : List Byte → Bool) (path mem f u v sub : List Byte) (hne : path ≠ []) (h0 : (0 : Byte) ∉ path) (hl : path.length < wizardPathExtent)
    (hm : wizardPathExtent ≤ mem.length) (hd : Drive found path f u) (hroom : u = path ∨ f.length + 1 + path.length ≤ mem.length) (hs : Subnode u v sub) :
    (∀ h t, v = h ++ asc '/' :: t → asc '/' ∉ t → Gives found path .head mem h ∧ Gives found path .tail mem t) ∧
    (asc '/' ∉ v → Gives found path .head mem [] ∧ Gives found path .tail mem v) := by
  have hp := prepare hne h0 hl hm hd hroom hs
  constructor
  · intro h t hv ht
    subst hv
    constructor
    · obtain ⟨hv0, _, _, _, _, _, rest, hlen, hg⟩ := hp .head
      refine ⟨h ++ 0 :: (t ++ 0 :: rest), ?_, textOf_text _ _ (fun hx => hv0 (List.mem_append_left _ hx)), by rw [← hlen]; simp⟩
      rw [hg, lastSeparator_slash h t rest hv0 ht, Res.ok_bind]
      exact head_slash h t rest
    · obtain ⟨hv0, _, _, _, _, _, rest, hlen, hg⟩ := hp .tail
      have ht0 : (0 : Byte) ∉ t := fun hx => hv0 (List.mem_append_right _ (List.mem_cons_of_mem _ hx))
      obtain ⟨rest', h1, h2⟩ := tail_slash h t rest ht0
      refine ⟨t ++ 0 :: rest', ?_, textOf_text _ _ ht0, by omega⟩
      rw [hg, lastSeparator_slash h t rest hv0 ht, Res.ok_bind]
      exact h1
  · intro hv
    constructor
    · obtain ⟨hv0, _, _, _, _, _, rest, hlen, hg⟩ := hp .head
      cases hvr : v ++ 0 :: rest with
      | nil => simp at hvr
      | cons x xs =>
        refine ⟨0 :: xs, ?_, rfl, by rw [← hlen, hvr]; simp⟩
        rw [hg, lastSeparator_none v rest hv0 hv, Res.ok_bind]
        show wr (v ++ 0 :: rest) 0 0 = _
        rw [hvr]
        exact wr_at [] xs 0 x
    · obtain ⟨hv0, _, _, _, _, _, rest, hlen, hg⟩ := hp .tail
      refine ⟨_, ?_, textOf_text _ _ hv0, hlen⟩
      rw [hg, lastSeparator_none v rest hv0 hv, Res.ok_bind]
      exact tail_none v rest hv

/-! ### Root and extension -/

theorem name_exists (v : List Byte) : ∃ t, NameOf v t := by
  rcases last_split isSeparator _ v (Nat.le_refl _) with h | ⟨a, c, b, rfl, hc, hb⟩
  · exact ⟨v, fun hx => absurd (h _ hx) (by decide), .inl rfl⟩
  · have : c = asc '/' := by unfold isSeparator at hc; simpa using hc
    subst this
    exact ⟨b, fun hx => absurd (hb _ hx) (by decide), .inr ⟨a, rfl⟩⟩

theorem nameOf_dot {v r e : List Byte} (hv : v = r ++ asc '.' :: e) (he : asc '/' ∉ e) {t : List Byte} (ht : NameOf v t) :
    ∃ r', t = r' ++ asc '.' :: e ∧ NameOf r r' := by
  obtain ⟨ht1, rfl | ⟨h, hh⟩⟩ := ht
  · exact ⟨r, hv, fun hx => ht1 (by rw [hv]; exact List.mem_append_left _ hx), .inl rfl⟩
  · rw [hv] at hh
    rcases List.append_eq_append_iff.mp hh with ⟨x, h1, h2⟩ | ⟨x, h1, h2⟩
    · cases x with
      | nil =>
        rw [List.nil_append] at h2
        have := (List.cons.inj h2).1
        exact absurd this (by decide)
      | cons y x =>
        have := (List.cons.inj h2).2
        exact absurd (by rw [this]; simp) he
    · cases x with
      | nil =>
        rw [List.nil_append] at h2
        have := (List.cons.inj h2).1
        exact absurd this (by decide)
      | cons y x =>
        rw [List.cons_append] at h2
        have hy := (List.cons.inj h2).1
        have ht := (List.cons.inj h2).2
        subst hy
        exact ⟨x, ht, fun hx => ht1 (by rw [ht]; exact List.mem_append_left _ hx), .inr ⟨h, h1⟩⟩

theorem name_spec (v t rest : List Byte) (ht : NameOf v t) (h0 : (0 : Byte) ∉ v) (hl : v.length < wizardPathExtent) (hm : wizardPathExtent ≤ (v ++ 0 :: rest).length) :
    (0 : Byte) ∉ t ∧ t.length < wizardPathExtent ∧
    ∃ p rest', lastSeparator (v ++ 0 :: rest) = .ok p ∧ nameOnly (v ++ 0 :: rest) p = .ok (t ++ 0 :: rest') ∧ (t ++ 0 :: rest').length = (v ++ 0 :: rest).length := by
  obtain ⟨hs, rfl | ⟨h, rfl⟩⟩ := ht
  · exact ⟨h0, hl, 0, rest, lastSeparator_none t rest h0 hs, nameOnly_none t rest hs, rfl⟩
  · have ht0 : (0 : Byte) ∉ t := fun hx => h0 (List.mem_append_right _ (List.mem_cons_of_mem _ hx))
    have htl : t.length < wizardPathExtent := by simp at hl; omega
    obtain ⟨rest', h1, h2⟩ := nameOnly_slash h t rest ht0 htl hm
    exact ⟨ht0, htl, h.length, rest', lastSeparator_slash h t rest h0 hs, h1, h2⟩

theorem isDot_false (b : List Byte) (h : asc '.' ∉ b) : ∀ x ∈ b, (x == asc '.') = false := by
  intro x hx
  simpa using fun e => h (by rw [← e]; exact hx)

theorem root_dot (r e rest : List Byte) (h0 : (0 : Byte) ∉ r ++ asc '.' :: e) (hd : asc '.' ∉ e) (hs : asc '/' ∉ e) :
    rootPath (r ++ asc '.' :: e ++ 0 :: rest) = .ok (r ++ 0 :: (e ++ 0 :: rest)) := by
  unfold rootPath
  rw [strlenMem_text _ _ h0, Res.ok_bind, if_neg (by simp)]
  rw [(backTo_end (r ++ asc '.' :: e) (0 :: rest) (by simp)).2 r (asc '.') e rfl (by decide) (by
    intro x hx
    have h1 := isDot_false e hd x hx
    have h2 : isSeparator x = false := by unfold isSeparator; simpa using fun e => hs (by rw [← e]; exact hx)
    simp only [h1, h2, Bool.or_false]), Res.ok_bind]
  have hr : rd (r ++ asc '.' :: e ++ 0 :: rest) r.length = .ok (asc '.') := by unfold rd; simp
  rw [hr, Res.ok_bind, if_pos rfl, List.append_assoc, List.cons_append, wr_at]

theorem root_none (v t rest : List Byte) (ht : NameOf v t) (h0 : (0 : Byte) ∉ v) (hne : v ≠ []) (hd : asc '.' ∉ t) :
    rootPath (v ++ 0 :: rest) = .ok (v ++ 0 :: rest) := by
  unfold rootPath
  rw [strlenMem_text _ _ h0, Res.ok_bind, if_neg (by simpa using hne)]
  have hst : ∀ x ∈ t, (isSeparator x || x == asc '.') = false := by
    intro x hx
    have h1 := isDot_false t hd x hx
    have h2 : isSeparator x = false := by unfold isSeparator; simpa using fun e => ht.1 (by rw [← e]; exact hx)
    simp only [h1, h2, Bool.or_false]
  obtain ⟨_, rfl | ⟨h, rfl⟩⟩ := ht
  · rw [(backTo_end t (0 :: rest) hne).1 hst, Res.ok_bind]
    obtain ⟨x, hx, hxne⟩ := head_not t rest (asc '.') (by decide) hd
    rw [hx, Res.ok_bind, if_neg hxne]
  · rw [(backTo_end _ (0 :: rest) hne).2 h (asc '/') t rfl (by decide) hst, Res.ok_bind]
    have hr : rd (h ++ asc '/' :: t ++ 0 :: rest) h.length = .ok (asc '/') := by unfold rd; simp
    rw [hr, Res.ok_bind, if_neg (by decide)]

theorem cutQuery_none (s rest : List Byte) (h0 : (0 : Byte) ∉ s) (hq : asc '?' ∉ s) : cutQuery (s ++ 0 :: rest) = .ok (s ++ 0 :: rest) := by
  unfold cutQuery
  rw [strchrMem_none (by decide) s rest h0 hq, Res.ok_bind]

theorem cutQuery_some (s q rest : List Byte) (h0 : (0 : Byte) ∉ s) (hq : asc '?' ∉ s) : cutQuery (s ++ asc '?' :: q ++ 0 :: rest) = .ok (s ++ 0 :: (q ++ 0 :: rest)) := by
  unfold cutQuery
  rw [List.append_assoc, List.cons_append, strchrMem_some s _ h0 hq, Res.ok_bind]
  simp only []
  rw [wr_at]

/-- The part of `extensionPath` after the name is alone: a dot behind the first byte. -/
theorem extension_dot (c : Byte) (r e rest : List Byte) (h0 : (0 : Byte) ∉ c :: r ++ asc '.' :: e) (hd : asc '.' ∉ e) (hl : e.length < wizardPathExtent)
    (hm : wizardPathExtent ≤ (c :: r ++ asc '.' :: e ++ 0 :: rest).length) :
    ∃ rest', (do
      let n ← strlenMem (c :: r ++ asc '.' :: e ++ 0 :: rest)
      let q ← backTo (· == asc '.') (c :: r ++ asc '.' :: e ++ 0 :: rest) (n - 1)
      let mem ← wr (c :: r ++ asc '.' :: e ++ 0 :: rest) 0 0
      let x ← rd mem q
      if x = asc '.' then do
        let r ← copyWizardString mem (mem.drop (q + 1)) wizardPathExtent
        cutQuery r.1
      else cutQuery mem) = cutQuery (e ++ 0 :: rest') ∧ (e ++ 0 :: rest').length = (c :: r ++ asc '.' :: e ++ 0 :: rest).length := by
  rw [strlenMem_text _ _ h0, Res.ok_bind,
    (backTo_end (c :: r ++ asc '.' :: e) (0 :: rest) (by simp)).2 (c :: r) (asc '.') e rfl (by simp) (isDot_false e hd), Res.ok_bind]
  have hw : wr (c :: r ++ asc '.' :: e ++ 0 :: rest) 0 0 = .ok (0 :: r ++ asc '.' :: e ++ 0 :: rest) := wr_at [] (r ++ asc '.' :: e ++ 0 :: rest) 0 c
  rw [hw, Res.ok_bind]
  have hr : rd (0 :: r ++ asc '.' :: e ++ 0 :: rest) (c :: r).length = .ok (asc '.') := by unfold rd; simp
  rw [hr, Res.ok_bind, if_pos rfl]
  have hdrop : (0 :: r ++ asc '.' :: e ++ 0 :: rest).drop ((c :: r).length + 1) = e ++ 0 :: rest := by
    rw [show 0 :: r ++ asc '.' :: e ++ 0 :: rest = (0 :: r ++ [asc '.']) ++ (e ++ 0 :: rest) by simp, List.drop_left' (by simp)]
  obtain ⟨rest', ret, hc, hlen⟩ := copy_path (0 :: r ++ asc '.' :: e ++ 0 :: rest) e rest (fun hx => h0 (List.mem_append_right _ (List.mem_cons_of_mem _ hx))) hl (by simpa using hm)
  rw [hdrop, hc, Res.ok_bind]
  exact ⟨rest', rfl, by rw [hlen]; simp⟩

/-- Without a dot, or with one only at the start of the name, the extension is empty. -/
theorem extension_none (t rest : List Byte) (h0 : (0 : Byte) ∉ t) (hd : ∀ c r, t = c :: r → asc '.' ∉ r) :
    ∃ rest', (do
      let n ← strlenMem (t ++ 0 :: rest)
      let q ← backTo (· == asc '.') (t ++ 0 :: rest) (n - 1)
      let mem ← wr (t ++ 0 :: rest) 0 0
      let x ← rd mem q
      if x = asc '.' then do
        let r ← copyWizardString mem (mem.drop (q + 1)) wizardPathExtent
        cutQuery r.1
      else cutQuery mem) = .ok (0 :: rest') ∧ (0 :: rest').length = (t ++ 0 :: rest).length := by
  rw [strlenMem_text _ _ h0, Res.ok_bind]
  have hb : backTo (· == asc '.') (t ++ 0 :: rest) (t.length - 1) = .ok 0 := by
    cases t with
    | nil => rfl
    | cons c r =>
      have := isDot_false r (hd c r rfl)
      cases hc : (c == asc '.') with
      | true =>
        exact (backTo_end (c :: r) (0 :: rest) (by simp)).2 [] c r rfl hc this
      | false =>
        refine (backTo_end (c :: r) (0 :: rest) (by simp)).1 ?_
        intro x hx
        rcases List.mem_cons.mp hx with rfl | hx
        · exact hc
        · exact this x hx
  rw [hb, Res.ok_bind]
  cases hvr : t ++ 0 :: rest with
  | nil => simp at hvr
  | cons x xs =>
    have hw : wr (x :: xs) 0 0 = .ok (0 :: xs) := wr_at [] xs 0 x
    rw [hw, Res.ok_bind, show rd (0 :: xs) 0 = .ok 0 from rfl, Res.ok_bind, if_neg (by decide)]
    exact ⟨xs, cutQuery_none [] xs (by simp) (by simp), by simp⟩

theorem drop_prefix_len {v t : List Byte} (ht : NameOf v t) : t.length ≤ v.length := by
  obtain ⟨_, rfl | ⟨h, rfl⟩⟩ := ht
  · exact Nat.le_refl _
  · simp; omega

/-- **C57** (partial) Root and extension: if the name has a dot behind its first byte, the extension is what follows the last one, up to
a question mark, and the root what precedes it, so that both joined by the dot are the path; if it has no dot, the root is the path and
the extension empty.  Missing: names that begin with their only dot (`C57_hidden_violated`), extensions with a question mark
(`C57_query_violated`), and paths that are only a subnode (`C57_underrun_violated`). -/
theorem C57_root_extension_partial (found : List Byte → Bool) (path mem f u v sub : List Byte) (hne : path ≠ []) (h0 : (0 : Byte) ∉ path) (hl : path.length < wizardPathExtent)
    (hm : wizardPathExtent ≤ mem.length) (hd : Drive found path f u) (hroom : u = path ∨ f.length + 1 + path.length ≤ mem.length) (hs : Subnode u v sub) :
    (∀ r e, v = r ++ asc '.' :: e → asc '.' ∉ e → asc '/' ∉ e → ¬ NameOf r [] → asc '?' ∉ e → Gives found path .root mem r ∧ Gives found path .extension mem e) ∧
    (∀ t, NameOf v t → asc '.' ∉ t → v ≠ [] → Gives found path .root mem v ∧ Gives found path .extension mem []) := by
  have hp := prepare hne h0 hl hm hd hroom hs
  constructor
  · intro r e hv he1 he2 hr hq
    constructor
    · obtain ⟨hv0, _, _, _, _, _, rest, hlen, hg⟩ := hp .root
      obtain ⟨t, ht⟩ := name_exists v
      obtain ⟨_, _, p, rest', hsep, _, _⟩ := name_spec v t rest ht hv0 (by omega) (by omega)
      subst hv
      refine ⟨r ++ 0 :: (e ++ 0 :: rest), ?_, textOf_text _ _ (fun hx => hv0 (List.mem_append_left _ hx)), by rw [← hlen]; simp⟩
      rw [hg, hsep, Res.ok_bind]
      exact root_dot r e rest hv0 he1 he2
    · obtain ⟨hv0, _, _, _, _, _, rest, hlen, hg⟩ := hp .extension
      obtain ⟨t, ht⟩ := name_exists v
      obtain ⟨ht0, htl, p, rest', hsep, hname, hlen'⟩ := name_spec v t rest ht hv0 (by omega) (by omega)
      obtain ⟨r', hr', hrn⟩ := nameOf_dot hv he2 ht
      cases r' with
      | nil => exact absurd hrn hr
      | cons c r' =>
        have he0 : (0 : Byte) ∉ e := fun hx => hv0 (by rw [hv]; exact List.mem_append_right _ (List.mem_cons_of_mem _ hx))
        subst hr'
        have hel : e.length < wizardPathExtent := by simp at htl; omega
        obtain ⟨rest2, h1, h2⟩ := extension_dot c r' e rest' ht0 he1 hel (by omega)
        refine ⟨e ++ 0 :: rest2, ?_, textOf_text _ _ he0, by omega⟩
        rw [hg, hsep, Res.ok_bind]
        show extensionPath _ _ = _
        unfold extensionPath
        rw [hname, Res.ok_bind, h1, cutQuery_none e rest2 he0 hq]
  · intro t ht htd hvne
    constructor
    · obtain ⟨hv0, _, _, _, _, _, rest, hlen, hg⟩ := hp .root
      obtain ⟨_, _, p, rest', hsep, _, _⟩ := name_spec v t rest ht hv0 (by omega) (by omega)
      refine ⟨v ++ 0 :: rest, ?_, textOf_text _ _ hv0, hlen⟩
      rw [hg, hsep, Res.ok_bind]
      exact root_none v t rest ht hv0 hvne htd
    · obtain ⟨hv0, _, _, _, _, _, rest, hlen, hg⟩ := hp .extension
      obtain ⟨ht0, htl, p, rest', hsep, hname, hlen'⟩ := name_spec v t rest ht hv0 (by omega) (by omega)
      obtain ⟨rest2, h1, h2⟩ := extension_none t rest' ht0 (fun c r e hx => htd (by rw [e]; exact List.mem_cons_of_mem _ hx))
      refine ⟨0 :: rest2, ?_, rfl, by omega⟩
      rw [hg, hsep, Res.ok_bind]
      show extensionPath _ _ = _
      unfold extensionPath
      rw [hname, Res.ok_bind, h1]

/-- **C57** The base name: the name without its extension. -/
theorem C57_base (found : List Byte → Bool) (path mem f u v sub t : List Byte) (hne : path ≠ []) (h0 : (0 : Byte) ∉ path) (hl : path.length < wizardPathExtent)
    (hm : wizardPathExtent ≤ mem.length) (hd : Drive found path f u) (hroom : u = path ∨ f.length + 1 + path.length ≤ mem.length) (hs : Subnode u v sub) (ht : NameOf v t) :
    (∀ b e, t = b ++ asc '.' :: e → b ≠ [] → asc '.' ∉ e → Gives found path .base mem b) ∧
    ((∀ c r, t = c :: r → asc '.' ∉ r) → Gives found path .base mem t) := by
  obtain ⟨hv0, _, _, _, _, _, rest, hlen, hg⟩ := prepare hne h0 hl hm hd hroom hs .base
  obtain ⟨ht0, htl, p, rest', hsep, hname, hlen'⟩ := name_spec v t rest ht hv0 (by omega) (by omega)
  have hb : getPathComponent found path .base mem = (do
      let q ← backTo (· == asc '.') (t ++ 0 :: rest') (t.length - 1)
      if q = 0 then .ok (t ++ 0 :: rest') else wr (t ++ 0 :: rest') q 0) := by
    rw [hg, hsep, Res.ok_bind]
    show basePath _ _ = _
    unfold basePath
    rw [hname, Res.ok_bind, strlenMem_text _ _ ht0, Res.ok_bind]
  constructor
  · intro b e hbe hbne hde
    subst hbe
    refine ⟨b ++ 0 :: (e ++ 0 :: rest'), ?_, textOf_text _ _ (fun hx => ht0 (List.mem_append_left _ hx)), by rw [← hlen, ← hlen']; simp⟩
    rw [hb, (backTo_end _ (0 :: rest') (by simp)).2 b (asc '.') e rfl (by simp) (isDot_false e hde), Res.ok_bind, if_neg (by simpa using hbne),
      List.append_assoc, List.cons_append, wr_at]
  · intro hno
    refine ⟨t ++ 0 :: rest', ?_, textOf_text _ _ ht0, by omega⟩
    rw [hb]
    have hb0 : backTo (· == asc '.') (t ++ 0 :: rest') (t.length - 1) = .ok 0 := by
      cases t with
      | nil => rfl
      | cons c r =>
        have := isDot_false r (hno c r rfl)
        cases hc : (c == asc '.') with
        | true => exact (backTo_end (c :: r) (0 :: rest') (by simp)).2 [] c r rfl hc this
        | false =>
          refine (backTo_end (c :: r) (0 :: rest') (by simp)).1 ?_
          intro x hx
          rcases List.mem_cons.mp hx with rfl | hx
          · exact hc
          · exact this x hx
    rw [hb0, Res.ok_bind, if_pos rfl]

/-! ### What goes wrong -/

theorem plain (found : List Byte → Bool) (p : List Byte) (hc : asc ':' ∉ p) (hb : asc ']' ∉ p) : Drive found p [] p ∧ Subnode p p [] :=
  ⟨.inl ⟨rfl, rfl, .inl hc⟩, .inl ⟨rfl, rfl, fun ⟨a, t, h⟩ => hb (by rw [h]; simp)⟩⟩

/-- **C57** is false of absolute paths: a file in the root directory has the same head and the same tail as a file of that name in the
working directory (the head of `/x` is empty, not `/`), so joining the two cannot give the path back. -/
theorem C57_absolute_violated (found : List Byte → Bool) (n mem : List Byte) (hne : n ≠ []) (h0 : (0 : Byte) ∉ n) (hl : n.length + 1 < wizardPathExtent)
    (hc : asc ':' ∉ n) (hb : asc ']' ∉ n) (hs : asc '/' ∉ n) (hm : wizardPathExtent ≤ mem.length) :
    Gives found (asc '/' :: n) .head mem [] ∧ Gives found (asc '/' :: n) .tail mem n ∧ Gives found n .head mem [] ∧ Gives found n .tail mem n := by
  obtain ⟨d1, s1⟩ := plain found n hc hb
  obtain ⟨d2, s2⟩ := plain found (asc '/' :: n) (by simp only [List.mem_cons, not_or]; exact ⟨by decide, hc⟩) (by simp only [List.mem_cons, not_or]; exact ⟨by decide, hb⟩)
  have h1 := (C57_head_tail_partial found n mem [] n n [] hne h0 (by omega) hm d1 (.inl rfl) s1).2 hs
  have h2 := (C57_head_tail_partial found (asc '/' :: n) mem [] _ _ [] (by simp) (by simp only [List.mem_cons, not_or]; exact ⟨by decide, h0⟩) (by simpa using hl) hm d2 (.inl rfl) s2).1 [] n rfl hs
  exact ⟨h2.1, h2.2, h1.1, h1.2⟩

/-- **C57** is false of hidden files: for a name that begins with its only dot the root is empty and so is the extension; the name is in
neither of them. -/
theorem C57_hidden_violated (found : List Byte → Bool) (n mem : List Byte) (h0 : (0 : Byte) ∉ n) (hl : n.length + 1 < wizardPathExtent)
    (hc : asc ':' ∉ n) (hb : asc ']' ∉ n) (hs : asc '/' ∉ n) (hd : asc '.' ∉ n) (hm : wizardPathExtent ≤ mem.length) :
    Gives found (asc '.' :: n) .root mem [] ∧ Gives found (asc '.' :: n) .extension mem [] := by
  obtain ⟨d2, s2⟩ := plain found (asc '.' :: n) (by simp only [List.mem_cons, not_or]; exact ⟨by decide, hc⟩) (by simp only [List.mem_cons, not_or]; exact ⟨by decide, hb⟩)
  have hp := prepare (by simp) (by simp only [List.mem_cons, not_or]; exact ⟨by decide, h0⟩) (by simpa using hl) hm d2 (.inl rfl) s2
  have hn : NameOf (asc '.' :: n) (asc '.' :: n) := ⟨by simp only [List.mem_cons, not_or]; exact ⟨by decide, hs⟩, .inl rfl⟩
  constructor
  · obtain ⟨hv0, _, _, _, _, _, rest, hlen, hg⟩ := hp .root
    obtain ⟨_, _, p, rest', hsep, _, _⟩ := name_spec _ _ rest hn hv0 (by simpa using hl) (by omega)
    refine ⟨0 :: (n ++ 0 :: rest), ?_, rfl, by rw [← hlen]; simp⟩
    rw [hg, hsep, Res.ok_bind]
    exact root_dot [] n rest hv0 hd hs
  · obtain ⟨hv0, _, _, _, _, _, rest, hlen, hg⟩ := hp .extension
    obtain ⟨ht0, htl, p, rest', hsep, hname, hlen'⟩ := name_spec _ _ rest hn hv0 (by simpa using hl) (by omega)
    obtain ⟨rest2, h1, h2⟩ := extension_none _ rest' ht0 (fun c r e => by cases e; exact hd)
    refine ⟨0 :: rest2, ?_, rfl, by omega⟩
    rw [hg, hsep, Res.ok_bind]
    show extensionPath _ _ = _
    unfold extensionPath
    rw [hname, Res.ok_bind, h1]

/-- **C57** is false of names with a question mark: the extension ends there, so root and extension do not give the path back. -/
theorem C57_query_violated (found : List Byte → Bool) (r e q mem : List Byte) (hne : r ≠ []) (h0 : (0 : Byte) ∉ r ++ asc '.' :: (e ++ asc '?' :: q))
    (hl : (r ++ asc '.' :: (e ++ asc '?' :: q)).length < wizardPathExtent) (hc : asc ':' ∉ r ++ asc '.' :: (e ++ asc '?' :: q)) (hb : asc ']' ∉ r ++ asc '.' :: (e ++ asc '?' :: q))
    (hs : asc '/' ∉ r ++ asc '.' :: (e ++ asc '?' :: q)) (hd : asc '.' ∉ e ++ asc '?' :: q) (hq : asc '?' ∉ e) (hm : wizardPathExtent ≤ mem.length) :
    Gives found (r ++ asc '.' :: (e ++ asc '?' :: q)) .extension mem e := by
  obtain ⟨d2, s2⟩ := plain found _ hc hb
  obtain ⟨hv0, _, _, _, _, _, rest, hlen, hg⟩ := prepare (by simp) h0 hl hm d2 (.inl rfl) s2 .extension
  obtain ⟨ht0, htl, p, rest', hsep, hname, hlen'⟩ := name_spec _ _ rest (⟨hs, .inl rfl⟩ : NameOf _ _) hv0 hl (by omega)
  cases r with
  | nil => exact absurd rfl hne
  | cons c r =>
    have he0 : (0 : Byte) ∉ e := fun hx => h0 (List.mem_append_right _ (List.mem_cons_of_mem _ (List.mem_append_left _ hx)))
    obtain ⟨rest2, h1, h2⟩ := extension_dot c r (e ++ asc '?' :: q) rest' ht0 hd (by simp at hl ⊢; omega) (by omega)
    refine ⟨e ++ 0 :: (q ++ 0 :: rest2), ?_, textOf_text _ _ he0, by simp at h2 hlen hlen' ⊢; omega⟩
    rw [hg, hsep, Res.ok_bind]
    show extensionPath _ _ = _
    unfold extensionPath
    rw [hname, Res.ok_bind, h1, cutQuery_some e q rest2 he0 hq]

/-- **C57** is false of paths that are only a subnode: once `[...]` is cut off, the text is empty, and asking for the root reads the byte
before the caller's buffer. -/
theorem C57_underrun_violated (found : List Byte → Bool) (n mem : List Byte) (h0 : (0 : Byte) ∉ n) (hl : n.length + 2 < wizardPathExtent)
    (hc : asc ':' ∉ n) (hb : asc '[' ∉ n) (hm : wizardPathExtent ≤ mem.length) :
    getPathComponent found (asc '[' :: n ++ [asc ']']) .root mem = .ub := by
  have d : Drive found (asc '[' :: n ++ [asc ']']) [] (asc '[' :: n ++ [asc ']']) := .inl ⟨rfl, rfl, .inl (by
    simp only [List.cons_append, List.mem_cons, List.mem_append, List.not_mem_nil, or_false, not_or]; exact ⟨by decide, hc, by decide⟩)⟩
  have s : Subnode (asc '[' :: n ++ [asc ']']) [] n := .inr ⟨rfl, hb⟩
  obtain ⟨hv0, _, _, _, _, _, rest, hlen, hg⟩ := prepare (by simp) (by
    simp only [List.cons_append, List.mem_cons, List.mem_append, List.not_mem_nil, or_false, not_or]; exact ⟨by decide, h0, by decide⟩) (by simp; omega) hm d (.inl rfl) s .root
  rw [hg]
  rw [show lastSeparator ([] ++ 0 :: rest) = .ok 0 from lastSeparator_none [] rest (by simp) (by simp)]
  rfl

/-- **C57** is false of long paths on a filesystem: to remove the filesystem as many bytes are moved as the whole path has, starting
behind the colon, so bytes behind the caller's buffer are read when filesystem and path together do not fit in it. -/
theorem C57_overread_violated (found : List Byte → Bool) (f u mem : List Byte) (type : PathType) (h0 : (0 : Byte) ∉ f ++ asc ':' :: u) (hl : (f ++ asc ':' :: u).length < wizardPathExtent)
    (hc : asc ':' ∉ f) (hf : found f = true) (hu : found (f ++ asc ':' :: u) = false) (hm : mem.length = wizardPathExtent)
    (hbig : wizardPathExtent < f.length + 1 + (f ++ asc ':' :: u).length) :
    getPathComponent found (f ++ asc ':' :: u) type mem = .ub := by
  unfold getPathComponent
  rw [if_neg (by simp)]
  obtain ⟨rest, r, hcp, hlen⟩ := copy_path mem (f ++ asc ':' :: u) [] h0 hl (by omega)
  rw [hcp, Res.ok_bind]
  have hfs : splitFilesystem found (f ++ asc ':' :: u) (f ++ asc ':' :: u ++ 0 :: rest) = .ub := by
    have hf0 : (0 : Byte) ∉ f := fun hx => h0 (List.mem_append_left _ hx)
    unfold splitFilesystem
    rw [List.append_assoc, List.cons_append, strchrMem_some f (u ++ 0 :: rest) hf0 hc, Res.ok_bind]
    simp only [hu]
    rw [if_neg (by simp)]
    have hcf : ∃ rest' ret, copyWizardString (List.replicate wizardPathExtent 0) (f ++ asc ':' :: (u ++ 0 :: rest)) (f.length + 1) = .ok (f ++ 0 :: rest', ret) := by
      have hfl : f.length < wizardPathExtent := by simp at hl; omega
      obtain ⟨ret, h⟩ := C05_copy (List.replicate wizardPathExtent 0) (f ++ asc ':' :: u) rest (f.length + 1) h0 (by omega) (by simp; omega)
      rw [Nat.add_sub_cancel, List.take_left' rfl, List.append_assoc, List.cons_append] at h
      exact ⟨_, ret, h⟩
    obtain ⟨rest', ret, hcf⟩ := hcf
    rw [hcf, Res.ok_bind, textOf_text _ _ hf0]
    rw [if_neg (by simp [hf])]
    have : shiftPath (f ++ asc ':' :: (u ++ 0 :: rest)) f.length = .ub := by
      unfold shiftPath
      rw [show f ++ asc ':' :: (u ++ 0 :: rest) = (f ++ asc ':' :: u) ++ 0 :: rest by simp, strlenMem_text _ _ h0, Res.ok_bind]
      unfold rdN
      rw [if_neg (by simp at hlen hbig ⊢; omega)]
      rfl
    rw [this]
    rfl
  rw [hfs]
  rfl

/-! ### Lists of components -/

theorem countComponents_none (a : List Byte) (h : asc '/' ∉ a) : countComponents a = 1 := by
  induction a with
  | nil => rfl
  | cons c a ih =>
    rw [List.mem_cons, not_or] at h
    have : isSeparator c = false := by unfold isSeparator; simpa using fun e => h.1 e.symm
    rw [countComponents, this, ih h.2]
    rfl

theorem countComponents_slash (a b : List Byte) (h : asc '/' ∉ a) : countComponents (a ++ asc '/' :: b) = 1 + countComponents b := by
  induction a with
  | nil => rfl
  | cons c a ih =>
    rw [List.mem_cons, not_or] at h
    have : isSeparator c = false := by unfold isSeparator; simpa using fun e => h.1 e.symm
    rw [List.cons_append, countComponents, this, ih h.2]
    simp

theorem first_split (s : List Byte) : asc '/' ∉ s ∨ ∃ a b, s = a ++ asc '/' :: b ∧ asc '/' ∉ a := by
  by_cases h : asc '/' ∈ s
  · obtain ⟨a, b, h1, h2⟩ := List.eq_append_cons_of_mem h
    exact .inr ⟨a, b, h1, h2⟩
  · exact .inl h

/-- One component: the bytes before a separator or the end. -/
theorem component_step (a : List Byte) (n : Nat) (hs : asc '/' ∉ a) (h0 : (0 : Byte) ∉ a) (s w : List Byte) (hs0 : (0 : Byte) ∉ s)
    (hsw : s = a ∨ ∃ b, s = a ++ asc '/' :: b) :
    collectComponents (n + 1) (s ++ 0 :: w) = (do let rest ← collectComponents n ((s ++ 0 :: w).drop (a.length + 1)); .ok (a :: rest)) := by
  have hq : (((s ++ 0 :: w).take s.length).takeWhile (fun c => !isSeparator c)).length = a.length := by
    rw [List.take_left' rfl]
    have ha : ∀ x ∈ a, (!isSeparator x) = true := by
      intro x hx
      unfold isSeparator
      simpa using fun e => hs (by rw [← e]; exact hx)
    rcases hsw with rfl | ⟨b, rfl⟩
    · have := List.takeWhile_append_of_pos (l₂ := []) ha
      rw [List.append_nil, List.takeWhile_nil, List.append_nil] at this
      rw [this]
    · rw [List.takeWhile_append_of_pos ha, List.takeWhile_cons_of_neg (by decide), List.append_nil]
  have hle : a.length ≤ s.length := by rcases hsw with rfl | ⟨b, rfl⟩ <;> simp
  have htk : s.take a.length = a := by
    rcases hsw with rfl | ⟨b, rfl⟩
    · exact List.take_length
    · exact List.take_left' rfl
  rw [collectComponents, strlenMem_text _ _ hs0, Res.ok_bind]
  simp only [hq]
  obtain ⟨ret, h⟩ := C05_copy (List.replicate (a.length + wizardPathExtent) 0) s w (a.length + 1) hs0 (by omega) (by
    rw [List.length_replicate]
    have : 0 < wizardPathExtent := by decide
    omega)
  rw [Nat.add_sub_cancel, htk] at h
  rw [h, Res.ok_bind, textOf_text _ _ h0]

theorem collect_spec (cs : List (List Byte)) (h0 : ∀ c ∈ cs, (0 : Byte) ∉ c) (hs : ∀ c ∈ cs, asc '/' ∉ c) (hne : cs ≠ []) :
    (0 : Byte) ∉ [asc '/'].intercalate cs ∧ countComponents ([asc '/'].intercalate cs) = cs.length ∧
    collectComponents cs.length ([asc '/'].intercalate cs ++ [0]) = .ok cs := by
  induction cs with
  | nil => exact absurd rfl hne
  | cons a cs ih =>
    have ha0 := h0 a (by simp)
    have has := hs a (by simp)
    cases cs with
    | nil =>
      rw [List.intercalate_singleton]
      refine ⟨ha0, countComponents_none a has, ?_⟩
      rw [show [a].length = 0 + 1 from rfl, component_step a 0 has ha0 a [] ha0 (.inl rfl)]
      rfl
    | cons b cs =>
      obtain ⟨i1, i2, i3⟩ := ih (fun c hc => h0 c (List.mem_cons_of_mem _ hc)) (fun c hc => hs c (List.mem_cons_of_mem _ hc)) (by simp)
      rw [List.intercalate_cons_cons]
      have hz : (0 : Byte) ∉ a ++ [asc '/'] ++ [asc '/'].intercalate (b :: cs) := by
        simp only [List.mem_append, List.mem_singleton, not_or]
        exact ⟨⟨ha0, by decide⟩, i1⟩
      rw [List.append_assoc, List.singleton_append] at hz ⊢
      refine ⟨hz, ?_, ?_⟩
      · rw [countComponents_slash _ _ has, i2]
        simp; omega
      · rw [show (a :: b :: cs).length = (b :: cs).length + 1 from rfl, component_step a _ has ha0 _ [] hz (.inr ⟨_, rfl⟩)]
        rw [show (a ++ asc '/' :: [asc '/'].intercalate (b :: cs) ++ 0 :: []) = (a ++ [asc '/']) ++ ([asc '/'].intercalate (b :: cs) ++ [0]) by simp,
          List.drop_left' (by simp), i3]
        rfl

theorem components_exist : ∀ (n : Nat) (s : List Byte), s.length ≤ n → ∃ cs, cs ≠ [] ∧ [asc '/'].intercalate cs = s ∧ ∀ c ∈ cs, asc '/' ∉ c := by
  intro n
  induction n with
  | zero =>
    intro s h
    have : s = [] := by cases s with | nil => rfl | cons _ _ => simp at h
    subst this
    exact ⟨[[]], by simp, rfl, by simp⟩
  | succ n ih =>
    intro s h
    rcases first_split s with hs | ⟨a, b, rfl, ha⟩
    · exact ⟨[s], by simp, List.intercalate_singleton, by simpa using hs⟩
    · obtain ⟨cs, h1, h2, h3⟩ := ih b (by simp at h; omega)
      refine ⟨a :: cs, by simp, ?_, ?_⟩
      · rw [List.intercalate_cons_of_ne_nil h1, h2]
        simp
      · intro c hc
        rcases List.mem_cons.mp hc with rfl | hc
        · exact ha
        · exact h3 c hc

theorem mem_join (cs : List (List Byte)) (c x) (hc : c ∈ cs) (hx : x ∈ c) : x ∈ [asc '/'].intercalate cs := by
  induction cs with
  | nil => simp at hc
  | cons a cs ih =>
    cases cs with
    | nil =>
      rw [List.intercalate_singleton]
      rw [List.mem_singleton] at hc
      rw [← hc]; exact hx
    | cons b cs =>
      rw [List.intercalate_cons_cons]
      rcases List.mem_cons.mp hc with rfl | hc
      · exact List.mem_append_left _ (List.mem_append_left _ hx)
      · exact List.mem_append_right _ (ih hc)

/-- **C87** Any list of components without separators is what the path made from it is split into. -/
theorem C87_join (cs : List (List Byte)) (hne : cs ≠ []) (h0 : ∀ c ∈ cs, (0 : Byte) ∉ c) (hs : ∀ c ∈ cs, asc '/' ∉ c) :
    getPathComponents ([asc '/'].intercalate cs) = .ok cs := by
  obtain ⟨_, h1, h2⟩ := collect_spec cs h0 hs hne
  unfold getPathComponents
  rw [h1, h2]

/-- **C87** The components of a path: joined by separators they are the path, and none of them has a separator. -/
theorem C87_components (path : List Byte) (h0 : (0 : Byte) ∉ path) :
    ∃ cs, getPathComponents path = .ok cs ∧ [asc '/'].intercalate cs = path ∧ ∀ c ∈ cs, asc '/' ∉ c := by
  obtain ⟨cs, h1, h2, h3⟩ := components_exist _ path (Nat.le_refl _)
  refine ⟨cs, ?_, h2, h3⟩
  rw [← h2]
  exact C87_join cs h1 (fun c hc hx => h0 (by rw [← h2]; exact mem_join cs c _ hc hx)) h3

/-! ### File extensions -/

theorem text_split (m x : List Byte) (h : textOf m = x) (hl : x.length < m.length) : ∃ rest, m = x ++ 0 :: rest ∧ (0 : Byte) ∉ x := by
  induction m generalizing x with
  | nil => simp at hl
  | cons c m ih =>
    by_cases hc : c = 0
    · subst hc
      rw [← h]
      exact ⟨m, rfl, by simp [textOf]⟩
    · have : textOf (c :: m) = c :: textOf m := by
        unfold textOf
        rw [List.takeWhile_cons_of_pos (by simpa using hc)]
      rw [this] at h
      subst h
      obtain ⟨rest, h1, h2⟩ := ih (textOf m) rfl (by simpa using hl)
      refine ⟨rest, ?_, ?_⟩
      · rw [List.cons_append, ← h1]
      · rw [List.mem_cons, not_or]; exact ⟨fun e => hc e.symm, h2⟩

theorem append_length (a b r m w : Nat) (h1 : a + 1 + b < w) (h2 : w ≤ m) (h3 : a + (r + 1) = m) :
    a + (0 + 1) + b + (a + (0 + 1) + (a + (r + 1) - (min (a + (0 + 1)) (w - 1) + 1) + 1) - (min (a + (0 + 1) + b) (w - 1) + 1) + 1) = m := by
  omega

theorem append_extension (found : List Byte → Bool) (junk filename ext r : List Byte) (hg : Gives found (textOf filename) .root junk r) (hj : junk.length = wizardPathExtent)
    (hf : textOf filename ≠ []) (hm : wizardPathExtent ≤ filename.length) (he : ext ≠ []) (he0 : (0 : Byte) ∉ ext) (hl : r.length + 1 + ext.length < wizardPathExtent) :
    ∃ m, appendFileExtension found junk ext filename = .ok m ∧ textOf m = r ++ asc '.' :: ext ∧ m.length = filename.length := by
  obtain ⟨m, hg1, hg2, hg3⟩ := hg
  obtain ⟨rest, hm1, hr0⟩ := text_split m r hg2 (by omega)
  have hc : ∃ c, rd filename 0 = .ok c ∧ c ≠ 0 := by
    cases filename with
    | nil => exact absurd rfl hf
    | cons c f =>
      refine ⟨c, rfl, fun e => hf ?_⟩
      subst e
      rfl
  obtain ⟨c, hc1, hc2⟩ := hc
  unfold appendFileExtension
  rw [hc1, Res.ok_bind, if_neg (by rintro (h | h); exact he h; exact hc2 h), hg1, Res.ok_bind]
  obtain ⟨rest1, ret, hcp, hlen⟩ := copy_path filename r rest hr0 (by omega) hm
  rw [hm1, hcp, Res.ok_bind]
  obtain ⟨b1, h1, hb1⟩ := C05_concatenate r rest1 [asc '.'] [] wizardPathExtent hr0 (by decide) (by omega) (by omega)
  rw [List.take_of_length_le (by simp; omega)] at hb1
  rw [show ([asc '.', 0] : List Byte) = [asc '.'] ++ 0 :: [] from rfl, h1, Res.ok_bind, hb1]
  have hb0 : (0 : Byte) ∉ r ++ [asc '.'] := by simp only [List.mem_append, List.mem_singleton, not_or]; exact ⟨hr0, by decide⟩
  obtain ⟨b2, h2, hb2⟩ := C05_concatenate (r ++ [asc '.']) ((r ++ 0 :: rest1).drop (min (r.length + [asc '.'].length) (wizardPathExtent - 1) + 1)) ext [] wizardPathExtent hb0 he0 (by simp; omega) (by
    simp at hlen ⊢; omega)
  rw [List.take_of_length_le (by simp; omega)] at hb2
  rw [h2, Res.ok_bind]
  refine ⟨b2, rfl, ?_, ?_⟩
  · rw [hb2, textOf_text _ _ (by rw [List.mem_append, not_or]; exact ⟨hb0, he0⟩)]
    simp
  · rw [hb2]
    simp only [List.length_append, List.length_cons, List.length_drop, List.length_nil] at hlen ⊢
    exact append_length _ _ _ _ _ hl hm hlen

/-- **C88** (partial) `AppendFileExtension` replaces the extension of a file name, or adds one to a name without extension, and leaves the
rest of the path as it is.  Missing: hidden files (`C88_hidden_violated`), and names with filesystem or subnode. -/
theorem C88_append_partial (found : List Byte → Bool) (junk filename ext v : List Byte) (hv : textOf filename = v) (hj : junk.length = wizardPathExtent) (hne : v ≠ [])
    (hm : wizardPathExtent ≤ filename.length) (hc : asc ':' ∉ v) (hb : asc ']' ∉ v) (he : ext ≠ []) (he0 : (0 : Byte) ∉ ext) (hl : v.length + 1 + ext.length < wizardPathExtent) :
    (∀ r e, v = r ++ asc '.' :: e → asc '.' ∉ e → asc '/' ∉ e → ¬ NameOf r [] → asc '?' ∉ e →
      ∃ m, appendFileExtension found junk ext filename = .ok m ∧ textOf m = r ++ asc '.' :: ext ∧ m.length = filename.length) ∧
    (∀ t, NameOf v t → asc '.' ∉ t → ∃ m, appendFileExtension found junk ext filename = .ok m ∧ textOf m = v ++ asc '.' :: ext ∧ m.length = filename.length) := by
  obtain ⟨d, s⟩ := plain found v hc hb
  have hv0 : (0 : Byte) ∉ v := by
    rw [← hv]
    intro hx
    have := XmlP.mem_takeWhile _ _ _ hx
    revert this; decide
  have h := C57_root_extension_partial found v junk [] v v [] hne hv0 (by omega) (by omega) d (.inl rfl) s
  constructor
  · intro r e hve h1 h2 h3 h4
    refine append_extension found junk filename ext r (by rw [hv]; exact (h.1 r e hve h1 h2 h3 h4).1) hj (by rw [hv]; exact hne) hm he he0 ?_
    have := congrArg List.length hve
    simp at this
    omega
  · intro t h1 h2
    exact append_extension found junk filename ext v (by rw [hv]; exact (h.2 t h1 h2 hne).1) hj (by rw [hv]; exact hne) hm he he0 hl

/-- **C88** is false of hidden files: the whole name is taken for an extension and is replaced, so two different files get the same
name. -/
theorem C88_hidden_violated (found : List Byte → Bool) (junk filename ext n : List Byte) (hv : textOf filename = asc '.' :: n) (hj : junk.length = wizardPathExtent)
    (hm : wizardPathExtent ≤ filename.length) (hl : n.length + 1 < wizardPathExtent) (hc : asc ':' ∉ n) (hb : asc ']' ∉ n) (hs : asc '/' ∉ n) (hd : asc '.' ∉ n)
    (he : ext ≠ []) (he0 : (0 : Byte) ∉ ext) (hle : ext.length + 1 < wizardPathExtent) :
    ∃ m, appendFileExtension found junk ext filename = .ok m ∧ textOf m = asc '.' :: ext := by
  have hv0 : (0 : Byte) ∉ n := by
    intro hx
    have h : (0 : Byte) ∈ textOf filename := by rw [hv]; exact List.mem_cons_of_mem _ hx
    have := XmlP.mem_takeWhile _ _ _ h
    revert this; decide
  obtain ⟨m, h1, h2, _⟩ := append_extension found junk filename ext [] (by rw [hv]; exact (C57_hidden_violated found n junk hv0 hl hc hb hs hd (by omega)).1) hj
    (by rw [hv]; simp) hm he he0 (by simp; omega)
  exact ⟨m, h1, h2⟩

/-! ### Chopping components -/

theorem text_no_zero (m : List Byte) : (0 : Byte) ∉ textOf m := by
  intro hx
  have := XmlP.mem_takeWhile _ _ _ hx
  revert this; decide

theorem chop_one (found : List Byte → Bool) (mem v : List Byte) (hv : textOf mem = v) (hl : v.length < wizardPathExtent) (hm : wizardPathExtent ≤ mem.length) (hc : asc ':' ∉ v) (hb : asc ']' ∉ v) :
    ∃ m, getPathComponent found (textOf mem) .head mem = .ok m ∧ m.length = mem.length ∧
      (∀ h t, v = h ++ asc '/' :: t → asc '/' ∉ t → textOf m = h) ∧ (asc '/' ∉ v → textOf m = []) := by
  have hv0 : (0 : Byte) ∉ v := by rw [← hv]; exact text_no_zero mem
  rw [hv]
  by_cases hne : v = []
  · subst hne
    cases mem with
    | nil => exact absurd hm (by decide)
    | cons x mem =>
      refine ⟨0 :: mem, ?_, by simp, fun h t e => by simp at e, fun _ => rfl⟩
      unfold getPathComponent
      rw [if_pos rfl]
      exact wr_at [] mem 0 x
  · obtain ⟨d, s⟩ := plain found v hc hb
    have h := C57_head_tail_partial found v mem [] v v [] hne hv0 hl hm d (.inl rfl) s
    rcases last_split isSeparator _ v (Nat.le_refl _) with hn | ⟨a, c, b, hv', hc', hb'⟩
    · have hn' : asc '/' ∉ v := fun hx => absurd (hn _ hx) (by decide)
      obtain ⟨m, h1, h2, h3⟩ := (h.2 hn').1
      exact ⟨m, h1, h3, fun h t e => absurd (by rw [e]; simp) hn', fun _ => h2⟩
    · have : c = asc '/' := by unfold isSeparator at hc'; simpa using hc'
      subst this
      have hb'' : asc '/' ∉ b := fun hx => absurd (hb' _ hx) (by decide)
      obtain ⟨m, h1, h2, h3⟩ := (h.1 a b hv' hb'').1
      refine ⟨m, h1, h3, fun h' t' e ht' => ?_, fun hx => absurd (by rw [hv']; simp) hx⟩
      obtain ⟨m', h1', h2', _⟩ := (h.1 h' t' e ht').1
      rw [h1] at h1'
      rw [Res.ok.inj h1']
      exact h2'

theorem join_concat (cs : List (List Byte)) (hne : cs ≠ []) (l : List Byte) : [asc '/'].intercalate (cs ++ [l]) = [asc '/'].intercalate cs ++ asc '/' :: l := by
  induction cs with
  | nil => exact absurd rfl hne
  | cons a cs ih =>
    cases cs with
    | nil =>
      rw [List.singleton_append, List.intercalate_cons_cons, List.intercalate_singleton, List.intercalate_singleton]
      simp
    | cons b cs =>
      rw [List.cons_append, List.cons_append, List.intercalate_cons_cons, ← List.cons_append, ih (by simp), List.intercalate_cons_cons]
      simp

theorem not_mem_join (x : Byte) (hx : x ≠ asc '/') (cs : List (List Byte)) (h : ∀ c ∈ cs, x ∉ c) : x ∉ [asc '/'].intercalate cs := by
  induction cs with
  | nil => simp
  | cons a cs ih =>
    have i := ih (fun c hc => h c (List.mem_cons_of_mem _ hc))
    cases cs with
    | nil =>
      rw [List.intercalate_singleton]
      exact h a (by simp)
    | cons b cs =>
      rw [List.intercalate_cons_cons]
      simp only [List.mem_append, List.mem_singleton, not_or]
      exact ⟨⟨h a (by simp), hx⟩, i⟩

/-- **C89** `ChopPathComponents` removes that many components from the end of a path; a path with fewer becomes empty. -/
theorem C89_chop (found : List Byte → Bool) (k : Nat) (cs : List (List Byte)) (mem : List Byte) (hv : textOf mem = [asc '/'].intercalate cs)
    (hs : ∀ c ∈ cs, asc '/' ∉ c) (hl : ([asc '/'].intercalate cs).length < wizardPathExtent) (hm : wizardPathExtent ≤ mem.length)
    (hc : ∀ c ∈ cs, asc ':' ∉ c) (hb : ∀ c ∈ cs, asc ']' ∉ c) :
    ∃ m, chopPathComponents found k mem = .ok m ∧ textOf m = [asc '/'].intercalate (cs.take (cs.length - k)) ∧ m.length = mem.length := by
  induction k generalizing cs mem with
  | zero => exact ⟨mem, rfl, by rw [Nat.sub_zero, List.take_length]; exact hv, rfl⟩
  | succ k ih =>
    obtain ⟨m, h1, h2, h3, h4⟩ := chop_one found mem _ hv hl hm (not_mem_join _ (by decide) cs hc) (not_mem_join _ (by decide) cs hb)
    rw [chopPathComponents, h1, Res.ok_bind]
    rcases List.eq_nil_or_concat cs with rfl | ⟨init, l, rfl⟩
    · obtain ⟨m', i1, i2, i3⟩ := ih [] m (h4 (by simp)) (by simp) (by decide) (by omega) (by simp) (by simp)
      exact ⟨m', i1, by rw [i2]; simp, by omega⟩
    · rw [List.concat_eq_append] at *
      have hl' : asc '/' ∉ l := hs l (by simp)
      by_cases hi : init = []
      · subst hi
        rw [List.nil_append, List.intercalate_singleton] at h4
        obtain ⟨m', i1, i2, i3⟩ := ih [] m (h4 hl') (by simp) (by decide) (by omega) (by simp) (by simp)
        refine ⟨m', i1, by rw [i2]; simp, by omega⟩
      · have hj := join_concat init hi l
        rw [hj] at hl
        obtain ⟨m', i1, i2, i3⟩ := ih init m (h3 _ _ hj hl') (fun c hc => hs c (List.mem_append_left _ hc)) (by simp at hl; omega) (by omega)
          (fun c hx => hc c (List.mem_append_left _ hx)) (fun c hx => hb c (List.mem_append_left _ hx))
        refine ⟨m', i1, ?_, by omega⟩
        rw [i2, List.take_append_of_le_length (by simp)]
        congr 2
        simp

/-! ### Concrete cases -/

/-- `a/b.c`, `a:b[2]` and `/x` meet the hypotheses. -/
example : Drive (fun _ => false) ([97, 47, 98, 46, 99] : List Byte) [] [97, 47, 98, 46, 99] ∧ Subnode ([97, 47, 98, 46, 99] : List Byte) [97, 47, 98, 46, 99] [] :=
  plain _ _ (by decide) (by decide)
example : ([97, 47, 98, 46, 99] : List Byte) = [97, 47, 98] ++ asc '.' :: [99] ∧ ¬ NameOf [97, 47, 98] [] := by
  refine ⟨by decide, fun ⟨_, h⟩ => ?_⟩
  rcases h with h | ⟨h, e⟩
  · cases h
  · have := congrArg List.getLast? e
    rw [List.getLast?_append] at this
    simp at this
    revert this; decide
example : Drive (fun s => s == [97]) ([97, 58, 98, 91, 50, 93] : List Byte) [97] [98, 91, 50, 93] ∧ Subnode ([98, 91, 50, 93] : List Byte) [98] [50] :=
  ⟨.inr ⟨by decide, by decide, by decide, .inr (by decide)⟩, .inr ⟨by decide, by decide⟩⟩
example : NameOf ([97, 47, 98] : List Byte) [98] := ⟨by decide, .inr ⟨[97], by decide⟩⟩
/-- The filesystem and the path are too long for the buffer together. -/
example : wizardPathExtent < (List.replicate 2100 (97 : Byte)).length + 1 + (List.replicate 2100 (97 : Byte) ++ asc ':' :: [98]).length := by
  rw [List.length_append, List.length_cons, List.length_replicate]; decide
/-- `/a//b/` has five components. -/
example : getPathComponents [47, 97, 47, 47, 98, 47] = .ok [[], [97], [], [98], []] :=
  C87_join [[], [97], [], [98], []] (by decide) (by decide) (by decide)

end Wizard.Props

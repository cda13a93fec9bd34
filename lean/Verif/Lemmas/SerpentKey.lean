import Verif.Lemmas.SerpentSpec
/-! serpent.c `SetSerpentKey`: the key schedule of the published cipher. -/
namespace Wizard
open Spec.Serpent

/-! ### Prekeys -/

/-- The register that receives prekey `t`. -/
def regR (t : Nat) : SerpentReg :=
  match t % 5 with
  | 0 => .alpha
  | 1 => .beta
  | 2 => .gamma
  | 3 => .delta
  | _ => .epsilon

theorem regR_inj (a b : Nat) (h : regR a = regR b) : a % 5 = b % 5 := by
  unfold regR at h
  have ha := Nat.mod_lt a (by decide : 5 > 0)
  have hb := Nat.mod_lt b (by decide : 5 > 0)
  revert h ha hb
  generalize a % 5 = x
  generalize b % 5 = y
  intro h hx hy
  match x, y, hx, hy with
  | 0, 0, _, _ | 1, 1, _, _ | 2, 2, _, _ | 3, 3, _, _ | 4, 4, _, _ => rfl
  | 0, 1, _, _ | 0, 2, _, _ | 0, 3, _, _ | 0, 4, _, _ => cases h
  | 1, 0, _, _ | 1, 2, _, _ | 1, 3, _, _ | 1, 4, _, _ => cases h
  | 2, 0, _, _ | 2, 1, _, _ | 2, 3, _, _ | 2, 4, _, _ => cases h
  | 3, 0, _, _ | 3, 1, _, _ | 3, 2, _, _ | 3, 4, _, _ => cases h
  | 4, 0, _, _ | 4, 1, _, _ | 4, 2, _, _ | 4, 3, _, _ => cases h

theorem regR_mod (a b : Nat) (h : a % 5 = b % 5) : regR a = regR b := by
  unfold regR
  rw [h]

/-- A churn line with absolute indices. -/
structure CRow where
  src : Nat
  b : SerpentReg
  c : SerpentReg
  d : SerpentReg
  i : Nat
  j : Nat
  deriving DecidableEq

def absChurn (base : Int) (p : Nat) : List SerpentOp → Option (List CRow × Int)
  | [] => some ([], base)
  | .churnRead b c d i j :: os =>
    if 0 ≤ base + j ∧ base + j < 132 then
      (absChurn base (p + 1) os).map fun r => (⟨p, b, c, d, i, (base + j).toNat⟩ :: r.1, r.2)
    else none
  | .churn k b c d i j :: os =>
    if (0 ≤ base + j ∧ base + j < 132) ∧ 0 ≤ base + k ∧ base + k < 132 then
      (absChurn base p os).map fun r =>
        (⟨(base + k).toNat, b, c, d, i, (base + j).toNat⟩ :: r.1, r.2)
    else none
  | .advance n :: os => absChurn (base + n) p os
  | _ => none

def CRow.apply (s : List Word × SerpentRegs) (r : CRow) : List Word × SerpentRegs :=
  let v := serpentChurn (s.1.getD r.src 0) (s.2.get r.b) (s.2.get r.c) (s.2.get r.d) r.i
  (s.1.set r.j v, s.2.set r.b v)

theorem absChurn_sound (os : List SerpentOp) : ∀ (s : SerpentState) (rs : List CRow) (b' : Int),
    absChurn s.base s.p os = some (rs, b') → s.mem.length = 132 →
    ∃ s' : SerpentState, serpentRun os s = .ok s' ∧ s'.base = b' ∧
      (s'.mem, s'.regs) = rs.foldl CRow.apply (s.mem, s.regs) := by
  induction os with
  | nil =>
    intro s rs b' h _
    cases h
    exact ⟨s, rfl, rfl, rfl⟩
  | cons o os ih =>
    intro s rs b' h hm
    cases o with
    | churnRead b c d i j =>
      rw [absChurn] at h
      split at h
      · rename_i hc
        rw [Option.map_eq_some_iff] at h
        obtain ⟨⟨rs', b1⟩, h1, h2⟩ := h
        cases h2
        obtain ⟨n, hn⟩ : ∃ n : Nat, s.base + j = n := ⟨(s.base + j).toNat, by omega⟩
        have e : SerpentOp.step s (.churnRead b c d i j) = .ok
            { s with mem := s.mem.set n (serpentChurn (s.mem.getD s.p 0) (s.regs.get b) (s.regs.get c)
                (s.regs.get d) i), p := s.p + 1, regs := s.regs.set b (serpentChurn (s.mem.getD s.p 0)
                (s.regs.get b) (s.regs.get c) (s.regs.get d) i) } := by
          simp only [SerpentOp.step]
          rw [s.write_ok j _ n hn (by omega), Res.ok_bind]
        obtain ⟨s', e', hb, q⟩ := ih ⟨s.mem.set n (serpentChurn (s.mem.getD s.p 0) (s.regs.get b) (s.regs.get c) (s.regs.get d) i),
          s.base, s.p + 1, s.regs.set b (serpentChurn (s.mem.getD s.p 0) (s.regs.get b) (s.regs.get c) (s.regs.get d) i)⟩
          rs' b1 h1 (by rw [List.length_set]; exact hm)
        refine ⟨s', ?_, hb, ?_⟩
        · rw [serpentRun, e, Res.ok_bind, ← e']
        · rw [q, List.foldl_cons, hn, Int.toNat_natCast]
          rfl
      · cases h
    | churn k b c d i j =>
      rw [absChurn] at h
      split at h
      · rename_i hc
        rw [Option.map_eq_some_iff] at h
        obtain ⟨⟨rs', b1⟩, h1, h2⟩ := h
        cases h2
        obtain ⟨n, hn⟩ : ∃ n : Nat, s.base + j = n := ⟨(s.base + j).toNat, by omega⟩
        obtain ⟨m, hm'⟩ : ∃ n : Nat, s.base + k = n := ⟨(s.base + k).toNat, by omega⟩
        have e : SerpentOp.step s (.churn k b c d i j) = .ok
            { s with mem := s.mem.set n (serpentChurn (s.mem.getD m 0) (s.regs.get b) (s.regs.get c)
                (s.regs.get d) i), regs := s.regs.set b (serpentChurn (s.mem.getD m 0)
                (s.regs.get b) (s.regs.get c) (s.regs.get d) i) } := by
          simp only [SerpentOp.step]
          rw [s.read_ok k m hm' (by omega), Res.ok_bind, s.write_ok j _ n hn (by omega), Res.ok_bind]
        obtain ⟨s', e', hb, q⟩ := ih ⟨s.mem.set n (serpentChurn (s.mem.getD m 0) (s.regs.get b) (s.regs.get c) (s.regs.get d) i),
          s.base, s.p, s.regs.set b (serpentChurn (s.mem.getD m 0) (s.regs.get b) (s.regs.get c) (s.regs.get d) i)⟩
          rs' b1 h1 (by rw [List.length_set]; exact hm)
        refine ⟨s', ?_, hb, ?_⟩
        · rw [serpentRun, e, Res.ok_bind, ← e']
        · rw [q, List.foldl_cons, hn, hm', Int.toNat_natCast, Int.toNat_natCast]
          rfl
      · cases h
    | advance n =>
      rw [absChurn] at h
      obtain ⟨s', e', hb, q⟩ := ih { s with base := s.base + n } rs b' h hm
      exact ⟨s', by rw [serpentRun, ← e']; rfl, hb, q⟩
    | mixKey a b c d i => cases h
    | encipherSbox n p => cases h
    | decipherSbox n p => cases h
    | encipherK p i => cases h
    | decipherK p i => cases h
    | load a b c d i => cases h
    | store a b c d i => cases h

/-- The churn line for prekey `t`. -/
def churnRow (t : Nat) : CRow :=
  ⟨if t < 8 then t else t - 8, regR t, regR (t + 4), regR (t + 2), t, t⟩

theorem churn_rows : absChurn 0 0 serpentChurnOps = some ((List.range 132).map churnRow, 100) := by
  decide +kernel

theorem serpentChurn_eq (a b c d : Word) (i : Nat) :
    serpentChurn a b c d i =
      (a ^^^ b ^^^ d ^^^ c ^^^ 0x9e3779b9#32 ^^^ BitVec.ofNat 32 i).rotateLeft 11 := by
  simp only [serpentChurn]
  rw [serpentRotateLeft_eq _ 11 (by decide)]
  congr 1
  show b ^^^ d ^^^ c ^^^ a ^^^ (0x9e3779b9#32 ^^^ BitVec.ofNat 32 i) = _
  generalize 0x9e3779b9#32 = p
  generalize BitVec.ofNat 32 i = q
  ac_rfl

theorem getD_set (l : List Word) (i j : Nat) (v : Word) :
    (l.set i v).getD j 0 = if i = j ∧ i < l.length then v else l.getD j 0 := by
  rw [List.getD_eq_getElem?_getD, List.getD_eq_getElem?_getD, List.getElem?_set]
  by_cases h : i = j
  · subst h
    by_cases h' : i < l.length
    · rw [if_pos rfl, if_pos h', if_pos ⟨rfl, h'⟩]; rfl
    · rw [if_pos rfl, if_neg h', if_neg (fun hh => h' hh.2)]
      rw [List.getElem?_eq_none (by omega)]
  · rw [if_neg h, if_neg (fun hh => h hh.1)]

/-- After `t` churn lines. -/
theorem churn_fold (key : List Byte) (mem : List Word) (regs : SerpentRegs) (hm : mem.length = 132)
    (h0 : ∀ j, j < 8 → mem.getD j 0 = prekey key j)
    (hr : ∀ i, i < 5 → regs.get (regR i) = prekey key (3 + i)) : ∀ t, t ≤ 132 →
    (((List.range t).map churnRow).foldl CRow.apply (mem, regs)).1.length = 132 ∧
    (∀ i, i < 5 → (((List.range t).map churnRow).foldl CRow.apply (mem, regs)).2.get (regR (t + i)) =
      prekey key (t + 3 + i)) ∧
    (∀ j, j < t → (((List.range t).map churnRow).foldl CRow.apply (mem, regs)).1.getD j 0 =
      prekey key (j + 8)) ∧
    (∀ j, t ≤ j → j < 8 → (((List.range t).map churnRow).foldl CRow.apply (mem, regs)).1.getD j 0 =
      prekey key j) := by
  intro t
  induction t with
  | zero =>
    intro _
    exact ⟨hm, fun i hi => by rw [Nat.zero_add, Nat.zero_add]; exact hr i hi,
      fun j hj => absurd hj (Nat.not_lt_zero j), fun j _ hj => h0 j hj⟩
  | succ t ih =>
    intro ht
    obtain ⟨i1, i2, i3, i4⟩ := ih (by omega)
    rw [List.range_succ, List.map_append, List.foldl_append, List.map_singleton, List.foldl_cons,
      List.foldl_nil]
    revert i1 i2 i3 i4
    generalize ((List.range t).map churnRow).foldl CRow.apply (mem, regs) = s
    intro i1 i2 i3 i4
    have hsrc : s.1.getD (churnRow t).src 0 = prekey key t := by
      show s.1.getD (if t < 8 then t else t - 8) 0 = _
      by_cases h : t < 8
      · rw [if_pos h]; exact i4 t (Nat.le_refl t) h
      · rw [if_neg h, i3 (t - 8) (by omega)]
        congr 1
        omega
    have hv : serpentChurn (s.1.getD (churnRow t).src 0) (s.2.get (churnRow t).b)
        (s.2.get (churnRow t).c) (s.2.get (churnRow t).d) (churnRow t).i = prekey key (t + 8) := by
      rw [hsrc, serpentChurn_eq]
      show (_ ^^^ s.2.get (regR t) ^^^ s.2.get (regR (t + 2)) ^^^ s.2.get (regR (t + 4)) ^^^ _ ^^^
        BitVec.ofNat 32 t).rotateLeft 11 = _
      have a0 := i2 0 (by decide)
      rw [Nat.add_zero, Nat.add_zero] at a0
      rw [a0, i2 2 (by decide), i2 4 (by decide)]
      rfl
    simp only [CRow.apply, hv]
    refine ⟨by rw [List.length_set]; exact i1, ?_, ?_, ?_⟩
    · intro i hi
      rw [SerpentRegs.get_set, show (churnRow t).b = regR t from rfl]
      by_cases h : i = 4
      · subst h
        rw [if_pos (regR_mod _ _ (by omega))]
      · rw [if_neg (fun hh => by have := regR_inj _ _ hh; omega)]
        have := i2 (i + 1) (by omega)
        rw [show t + (i + 1) = t + 1 + i by omega, show t + 3 + (i + 1) = t + 1 + 3 + i by omega] at this
        exact this
    · intro j hj
      show (s.1.set t _).getD j 0 = _
      rw [getD_set]
      by_cases h : t = j
      · rw [if_pos ⟨h, by omega⟩, h]
      · rw [if_neg (fun hh => h hh.1)]
        exact i3 j (by omega)
    · intro j hj h8
      show (s.1.set t _).getD j 0 = _
      rw [getD_set, if_neg (fun hh => by omega)]
      exact i4 j (by omega) h8

/-! ### Round keys -/

def keyTrace : Nat → List AOp
  | 0 => []
  | n + 1 => .load (4 * n) :: .sub ((35 - n) % 8) :: .store (4 * n) :: keyTrace n

theorem key_trace : absOps (.delta, .epsilon, .alpha, .beta) 100 serpentSboxOps =
    some ([.sub 3, .store 128] ++ keyTrace 32, (.beta, .gamma, .epsilon, .delta), 0) := by
  decide +kernel

theorem quadAt_setQuad (mem : List Word) (i j : Nat) (q : Quad) (h : 4 * j + 3 < mem.length) :
    quadAt (setQuad mem (4 * j) q) (4 * i) = if i = j then q else quadAt mem (4 * i) := by
  by_cases e : i = j
  · subst e
    rw [if_pos rfl]
    simp only [quadAt, setQuad, getD_set, List.length_set]
    have h1 : ∀ n, n ≠ 0 → ¬ (4 * i + n = 4 * i ∧ 4 * i + n < mem.length) := by omega
    have h2 : ∀ n m, n ≠ m → ¬ (4 * i + n = 4 * i + m ∧ 4 * i + n < mem.length) := by omega
    simp only [if_neg (h1 1 (by decide)), if_neg (h1 2 (by decide)), if_neg (h1 3 (by decide)),
      if_neg (h2 2 1 (by decide)), if_neg (h2 3 1 (by decide)), if_neg (h2 3 2 (by decide)), true_and,
      if_pos (show 4 * i < mem.length by omega), if_pos (show 4 * i + 1 < mem.length by omega),
      if_pos (show 4 * i + 2 < mem.length by omega), if_pos h]
  · have hh : ∀ n m, n < 4 → m < 4 → ¬ (4 * j + n = 4 * i + m ∧ 4 * j + n < mem.length) := by omega
    rw [if_neg e]
    simp only [quadAt, setQuad, getD_set, List.length_set]
    have h00 := hh 0 0 (by decide) (by decide)
    have h01 := hh 0 1 (by decide) (by decide)
    have h02 := hh 0 2 (by decide) (by decide)
    have h03 := hh 0 3 (by decide) (by decide)
    have h10 := hh 1 0 (by decide) (by decide)
    have h20 := hh 2 0 (by decide) (by decide)
    have h30 := hh 3 0 (by decide) (by decide)
    simp only [Nat.add_zero] at h00 h01 h02 h03 h10 h20 h30
    simp only [if_neg h00, if_neg h01, if_neg h02, if_neg h03, if_neg h10, if_neg h20, if_neg h30,
      if_neg (hh 1 1 (by decide) (by decide)), if_neg (hh 1 2 (by decide) (by decide)),
      if_neg (hh 1 3 (by decide) (by decide)), if_neg (hh 2 1 (by decide) (by decide)),
      if_neg (hh 2 2 (by decide) (by decide)), if_neg (hh 2 3 (by decide) (by decide)),
      if_neg (hh 3 1 (by decide) (by decide)), if_neg (hh 3 2 (by decide) (by decide)),
      if_neg (hh 3 3 (by decide) (by decide))]

theorem keyTrace_fold (n : Nat) : ∀ (mem : List Word) (q : Quad), 4 * n ≤ mem.length →
    ((keyTrace n).foldl AOp.apply (mem, q)).1.length = mem.length ∧
    ∀ i, quadAt ((keyTrace n).foldl AOp.apply (mem, q)).1 (4 * i) =
      if i < n then sub ((35 - i) % 8) (quadAt mem (4 * i)) else quadAt mem (4 * i) := by
  induction n with
  | zero => intro mem q _; exact ⟨rfl, fun i => rfl⟩
  | succ n ih =>
    intro mem q h
    simp only [keyTrace, List.foldl_cons, AOp.apply]
    obtain ⟨h1, h2⟩ := ih (setQuad mem (4 * n) (sub ((35 - n) % 8) (quadAt mem (4 * n))))
      (sub ((35 - n) % 8) (quadAt mem (4 * n))) (by rw [setQuad_length]; omega)
    refine ⟨by rw [h1, setQuad_length], fun i => ?_⟩
    rw [h2, quadAt_setQuad mem i n _ (by omega)]
    by_cases e : i = n
    · subst e
      rw [if_neg (Nat.lt_irrefl i), if_pos rfl, if_pos (Nat.lt_succ_self i)]
    · rw [if_neg e]
      by_cases e' : i < n
      · rw [if_pos e', if_pos (by omega)]
      · rw [if_neg e', if_neg (by omega)]

theorem serpentKeyBytes_eq (key : List Byte) : serpentKeyBytes key = padKey (key.take 32) := by
  simp only [serpentKeyBytes, padKey]
  have h : (key.take 32).length ≤ 32 := by rw [List.length_take]; omega
  by_cases e : (key.take 32).length < 32
  · rw [if_pos e, if_pos e, List.append_assoc]
    congr 1
    simp only [List.length_append, List.length_singleton]
    rw [show 32 - ((key.take 32).length + 1) = 31 - (key.take 32).length by omega]
    rfl
  · rw [if_neg e, if_neg e, show 32 - (key.take 32).length = 0 by omega, List.replicate_zero,
      List.append_nil]

theorem prekey_word (key : List Byte) (j : Nat) (h : j < 8) : prekey key j = word key j := by
  match j, h with
  | 0, _ | 1, _ | 2, _ | 3, _ | 4, _ | 5, _ | 6, _ | 7, _ => simp only [prekey]

/-- `SetSerpentKey` fills the array with the published round keys, whatever it held before. -/
theorem setSerpentKey_eq (k : List Word) (key : StringInfo) (hk : k.length = 132) :
    ∃ k', setSerpentKey k key = .ok k' ∧ k'.length = 132 ∧
      ∀ i, i < 33 → quadAt k' (4 * i) = roundKey (padKey (key.bytes.take 32)) i := by
  have hmap : ((List.range 8).map (serpentRead32 (serpentKeyBytes key.bytes))).length = 8 := by
    rw [List.length_map, List.length_range]
  have hm : ((List.range 8).map (serpentRead32 (serpentKeyBytes key.bytes)) ++ k.drop 8).length = 132 := by
    rw [List.length_append, hmap, List.length_drop]; omega
  rw [← serpentKeyBytes_eq]
  generalize hK : serpentKeyBytes key.bytes = K at hm hmap ⊢
  have h0 : ∀ j, j < 8 → ((List.range 8).map (serpentRead32 K) ++ k.drop 8).getD j 0 = prekey K j := by
    intro j hj
    rw [List.getD_eq_getElem?_getD, List.getElem?_append_left (by omega), List.getElem?_map,
      List.getElem?_range hj, Option.map_some, Option.getD_some, serpentRead32_eq, prekey_word K j hj]
  obtain ⟨s1, e1, hb1, q1⟩ := absChurn_sound serpentChurnOps ⟨(List.range 8).map (serpentRead32 K) ++ k.drop 8,
    0, 0, ⟨serpentRead32 K 3, serpentRead32 K 4, serpentRead32 K 5, serpentRead32 K 6,
     serpentRead32 K 7⟩⟩ _ _ churn_rows hm
  obtain ⟨c1, c2, c3, -⟩ := churn_fold K _ ⟨serpentRead32 K 3, serpentRead32 K 4, serpentRead32 K 5,
    serpentRead32 K 6, serpentRead32 K 7⟩ hm h0 (by
      intro i hi
      rw [prekey_word K _ (by omega)]
      match i, hi with
      | 0, _ | 1, _ | 2, _ | 3, _ | 4, _ => exact serpentRead32_eq K _) 132 (Nat.le_refl _)
  rw [← q1] at c1 c2 c3
  obtain ⟨s2, e2, l2, -, q2⟩ := absOps_sound serpentSboxOps (.delta, .epsilon, .alpha, .beta) _ s1 _ _
    (by rw [hb1]; exact key_trace) c1
  refine ⟨s2.mem, ?_, l2, ?_⟩
  · rw [setSerpentKey]
    simp only [hK]
    rw [e1, Res.ok_bind, e2, Res.ok_bind]
  · have q3 := congrArg Prod.fst q2
    simp only [List.foldl_append, List.foldl_cons, List.foldl_nil, AOp.apply] at q3
    intro i hi
    rw [q3]
    obtain ⟨-, h2⟩ := keyTrace_fold 32 (setQuad s1.mem 128 (sub 3 (s1.regs.view
      (.delta, .epsilon, .alpha, .beta)))) (sub 3 (s1.regs.view (.delta, .epsilon, .alpha, .beta)))
      (by rw [setQuad_length]; simp only [] at c1; omega)
    rw [h2, show 128 = 4 * 32 from rfl, quadAt_setQuad s1.mem i 32 _ (by simp only [] at c1; omega)]
    by_cases e : i = 32
    · subst e
      rw [if_neg (by decide), if_pos rfl]
      have r1 := c2 1 (by decide)
      have r2 := c2 2 (by decide)
      have r3 := c2 3 (by decide)
      have r4 := c2 4 (by decide)
      have a1 : s1.regs.get .delta = prekey K 136 := r1
      have a2 : s1.regs.get .epsilon = prekey K 137 := r2
      have a3 : s1.regs.get .alpha = prekey K 138 := r3
      have a4 : s1.regs.get .beta = prekey K 139 := r4
      rw [SerpentRegs.view]
      simp only [a1, a2, a3, a4]
      rfl
    · rw [if_neg e, if_pos (by omega), roundKey]
      congr 1
      simp only [quadAt]
      rw [c3 _ (by omega), c3 _ (by omega), c3 _ (by omega), c3 _ (by omega)]

end Wizard

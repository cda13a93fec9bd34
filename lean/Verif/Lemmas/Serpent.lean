import Verif.Lemmas.SerpentSbox
/-! serpent.c: the block functions and the key schedule are those of the published cipher.  The lists
of source lines are checked, by an abstract interpreter proved sound below, to keep the four words
of the published description in the registers each line expects. -/
namespace Wizard
open Spec.Serpent

theorem serpentRotateLeft_eq (x : Word) (n : Nat) (h : n < 32) :
    serpentRotateLeft x n = x.rotateLeft n := by
  rw [serpentRotateLeft, BitVec.rotateLeft_def, Nat.mod_eq_of_lt h]

theorem serpentRotateRight_eq (x : Word) (n : Nat) (h : n < 32) :
    serpentRotateRight x n = x.rotateRight n := by
  rw [serpentRotateRight, BitVec.rotateRight_def, Nat.mod_eq_of_lt h]

theorem encipherK_spec (k0 k1 k2 k3 a b c d : Word) :
    (encipherK k0 k1 k2 k3 a b c d).view (.alpha, .beta, .gamma, .delta) =
      mix ⟨k0, k1, k2, k3⟩ (lt ⟨a, b, c, d⟩) := by
  simp only [encipherK, SerpentRegs.view, SerpentRegs.get, mix, lt,
    serpentRotateLeft_eq _ 13 (by decide), serpentRotateLeft_eq _ 3 (by decide),
    serpentRotateLeft_eq _ 1 (by decide), serpentRotateLeft_eq _ 7 (by decide),
    serpentRotateLeft_eq _ 5 (by decide), serpentRotateLeft_eq _ 22 (by decide)]

theorem decipherK_spec (k0 k1 k2 k3 a b c d : Word) :
    (decipherK k0 k1 k2 k3 a b c d).view (.alpha, .beta, .gamma, .delta) =
      ltInv (mix ⟨k0, k1, k2, k3⟩ ⟨a, b, c, d⟩) := by
  simp only [decipherK, SerpentRegs.view, SerpentRegs.get, mix, ltInv, Quad.mk.injEq,
    serpentRotateRight_eq _ 13 (by decide), serpentRotateRight_eq _ 3 (by decide),
    serpentRotateRight_eq _ 1 (by decide), serpentRotateRight_eq _ 7 (by decide),
    serpentRotateRight_eq _ 5 (by decide), serpentRotateRight_eq _ 22 (by decide)]
  have rc : ∀ x y z : Word, x ^^^ y ^^^ z = x ^^^ z ^^^ y := fun x y z => by
    rw [BitVec.xor_assoc, BitVec.xor_comm y z, ← BitVec.xor_assoc]
  rw [rc ((a ^^^ k0).rotateRight 5)]
  exact ⟨rfl, rfl, trivial, rc _ _ _⟩

/-- Four registers. -/
abbrev SView := SerpentReg × SerpentReg × SerpentReg × SerpentReg

theorem SerpentRegs.get_set (s : SerpentRegs) (r r' : SerpentReg) (v : Word) :
    (s.set r v).get r' = if r' = r then v else s.get r' := by
  cases r <;> cases r' <;> rfl

/-- Pairwise distinct registers. -/
def SView.distinct (v : SView) : Bool :=
  v.1 ≠ v.2.1 && v.1 ≠ v.2.2.1 && v.1 ≠ v.2.2.2 && v.2.1 ≠ v.2.2.1 && v.2.1 ≠ v.2.2.2
    && v.2.2.1 ≠ v.2.2.2

def SerpentArgs.ok (p : SerpentArgs) : Bool :=
  p.a ≠ p.b && p.a ≠ p.c && p.a ≠ p.d && p.a ≠ p.e && p.b ≠ p.c && p.b ≠ p.d && p.b ≠ p.e
    && p.c ≠ p.d && p.c ≠ p.e && p.d ≠ p.e

/-- The register passed for a formal parameter. -/
def SerpentArgs.pick (p : SerpentArgs) : SerpentReg → SerpentReg
  | .alpha => p.a
  | .beta => p.b
  | .gamma => p.c
  | .delta => p.d
  | .epsilon => p.e

def SerpentArgs.view (p : SerpentArgs) : SView := (p.a, p.b, p.c, p.d)

def SerpentArgs.pickView (p : SerpentArgs) (v : SView) : SView :=
  (p.pick v.1, p.pick v.2.1, p.pick v.2.2.1, p.pick v.2.2.2)

theorem expand_pick (s : SerpentRegs) (f : Word → Word → Word → Word → SerpentRegs)
    (p : SerpentArgs) (h : p.ok = true) (r : SerpentReg) :
    (s.expand f p).get (p.pick r) = (f (s.get p.a) (s.get p.b) (s.get p.c) (s.get p.d)).get r := by
  simp only [SerpentArgs.ok, ne_eq, decide_not, Bool.and_eq_true, Bool.not_eq_eq_eq_not,
    Bool.not_true, decide_eq_false_iff_not] at h
  obtain ⟨⟨⟨⟨⟨⟨⟨⟨⟨h1, h2⟩, h3⟩, h4⟩, h5⟩, h6⟩, h7⟩, h8⟩, h9⟩, h10⟩ := h
  cases r <;> simp only [SerpentRegs.expand, SerpentArgs.pick, SerpentRegs.get_set, if_true, if_neg h1,
    if_neg h2, if_neg h3, if_neg h4, if_neg h5, if_neg h6, if_neg h7, if_neg h8, if_neg h9,
    if_neg h10] <;> rfl

theorem expand_view (s : SerpentRegs) (f : Word → Word → Word → Word → SerpentRegs)
    (p : SerpentArgs) (h : p.ok = true) (v : SView) :
    (s.expand f p).view (p.pickView v) =
      (f (s.get p.a) (s.get p.b) (s.get p.c) (s.get p.d)).view v := by
  simp only [SerpentRegs.view, SerpentArgs.pickView, expand_pick s f p h]

/-- What a source line does to the round keys and the four words. -/
inductive AOp where
  | mix (i : Nat)
  | sub (n : Nat)
  | subInv (n : Nat)
  | ltMix (i : Nat)
  | mixLtInv (i : Nat)
  | load (o : Nat)
  | store (o : Nat)
  deriving DecidableEq

def quadAt (mem : List Word) (o : Nat) : Quad :=
  ⟨mem.getD o 0, mem.getD (o + 1) 0, mem.getD (o + 2) 0, mem.getD (o + 3) 0⟩

def setQuad (mem : List Word) (o : Nat) (q : Quad) : List Word :=
  (((mem.set o q.x0).set (o + 1) q.x1).set (o + 2) q.x2).set (o + 3) q.x3

def AOp.apply (s : List Word × Quad) : AOp → List Word × Quad
  | .mix i => (s.1, Spec.Serpent.mix (quadAt s.1 (4 * i)) s.2)
  | .sub n => (s.1, Spec.Serpent.sub n s.2)
  | .subInv n => (s.1, Spec.Serpent.subInv n s.2)
  | .ltMix i => (s.1, Spec.Serpent.mix (quadAt s.1 (4 * i)) (lt s.2))
  | .mixLtInv i => (s.1, ltInv (Spec.Serpent.mix (quadAt s.1 (4 * i)) s.2))
  | .load o => (s.1, quadAt s.1 o)
  | .store o => (setQuad s.1 o s.2, s.2)

/-- The abstract effect of a line, if its registers and indices are as expected. -/
def absOp (v : SView) (base : Int) : SerpentOp → Option (List AOp × SView × Int)
  | .mixKey a b c d i =>
      if (a, b, c, d) = v ∧ v.distinct = true ∧ base = 0 ∧ i < 33 then some ([.mix i], v, base)
      else none
  | .encipherSbox n p =>
      if p.ok = true ∧ p.view = v ∧ n < 8 then some ([.sub n], p.pickView (sboxOut n), base)
      else none
  | .decipherSbox n p =>
      if p.ok = true ∧ p.view = v ∧ n < 8 then some ([.subInv n], p.pickView (sboxInvOut n), base)
      else none
  | .encipherK p i =>
      if p.ok = true ∧ p.view = v ∧ base = 0 ∧ i < 33 then some ([.ltMix i], v, base) else none
  | .decipherK p i =>
      if p.ok = true ∧ p.view = v ∧ base = 0 ∧ i < 33 then some ([.mixLtInv i], v, base) else none
  | .load a b c d i =>
      if SView.distinct (a, b, c, d) = true ∧ 0 ≤ base + i ∧ base + i < 129 then
        some ([.load (base + i).toNat], (a, b, c, d), base) else none
  | .store a b c d i =>
      if (a, b, c, d) = v ∧ 0 ≤ base + i ∧ base + i < 129 then
        some ([.store (base + i).toNat], v, base) else none
  | .advance n => some ([], v, base + n)
  | .churnRead .. => none
  | .churn .. => none

def absOps (v : SView) (base : Int) : List SerpentOp → Option (List AOp × SView × Int)
  | [] => some ([], v, base)
  | o :: os =>
    match absOp v base o with
    | none => none
    | some (as, v', base') =>
      match absOps v' base' os with
      | none => none
      | some (as', v'', base'') => some (as ++ as', v'', base'')

theorem SerpentState.read_ok (s : SerpentState) (i : Int) (n : Nat) (h : s.base + i = n)
    (h' : n < s.mem.length) : s.read i = .ok (s.mem.getD n 0) := by
  rw [SerpentState.read, if_pos (by omega), h, Int.toNat_natCast]

theorem SerpentState.write_ok (s : SerpentState) (i : Int) (v : Word) (n : Nat) (h : s.base + i = n)
    (h' : n < s.mem.length) : s.write i v = .ok { s with mem := s.mem.set n v } := by
  rw [SerpentState.write, if_pos (by omega), h, Int.toNat_natCast]

/-- Four consecutive reads. -/
theorem read4 {α : Type} (s : SerpentState) (i j k l : Int) (n : Nat) (h : s.base + i = n)
    (hj : j = i + 1) (hk : k = i + 2) (hl : l = i + 3)
    (h' : n + 3 < s.mem.length) (f : Word → Word → Word → Word → Res α) :
    (s.read i >>= fun a => s.read j >>= fun b => s.read k >>= fun c => s.read l >>= fun d =>
      f a b c d) =
    f (quadAt s.mem n).x0 (quadAt s.mem n).x1 (quadAt s.mem n).x2 (quadAt s.mem n).x3 := by
  rw [s.read_ok i n h (by omega), s.read_ok j (n + 1) (by omega) (by omega),
    s.read_ok k (n + 2) (by omega) (by omega), s.read_ok l (n + 3) (by omega) (by omega)]
  rfl

theorem encipherSbox_spec (n : Nat) (h : n < 8) (a b c d : Word) :
    (encipherSbox n a b c d).view (sboxOut n) = sub n ⟨a, b, c, d⟩ := by
  match n, h with
  | 0, _ => exact encipherSbox0_spec a b c d
  | 1, _ => exact encipherSbox1_spec a b c d
  | 2, _ => exact encipherSbox2_spec a b c d
  | 3, _ => exact encipherSbox3_spec a b c d
  | 4, _ => exact encipherSbox4_spec a b c d
  | 5, _ => exact encipherSbox5_spec a b c d
  | 6, _ => exact encipherSbox6_spec a b c d
  | 7, _ => exact encipherSbox7_spec a b c d

theorem decipherSbox_spec (n : Nat) (h : n < 8) (a b c d : Word) :
    (decipherSbox n a b c d).view (sboxInvOut n) = subInv n ⟨a, b, c, d⟩ := by
  match n, h with
  | 0, _ => exact decipherSbox0_spec a b c d
  | 1, _ => exact decipherSbox1_spec a b c d
  | 2, _ => exact decipherSbox2_spec a b c d
  | 3, _ => exact decipherSbox3_spec a b c d
  | 4, _ => exact decipherSbox4_spec a b c d
  | 5, _ => exact decipherSbox5_spec a b c d
  | 6, _ => exact decipherSbox6_spec a b c d
  | 7, _ => exact decipherSbox7_spec a b c d

/-- Four assignments to distinct registers. -/
theorem view_set4 (r : SerpentRegs) (v : SView) (h : v.distinct = true) (q : Quad) :
    ((((r.set v.1 q.x0).set v.2.1 q.x1).set v.2.2.1 q.x2).set v.2.2.2 q.x3).view v = q := by
  simp only [SView.distinct, ne_eq, decide_not, Bool.and_eq_true, Bool.not_eq_eq_eq_not,
    Bool.not_true, decide_eq_false_iff_not] at h
  obtain ⟨⟨⟨⟨⟨h1, h2⟩, h3⟩, h5⟩, h6⟩, h8⟩ := h
  simp only [SerpentRegs.view, SerpentRegs.get_set, if_true, if_neg h1, if_neg h2, if_neg h3,
    if_neg h5, if_neg h6, if_neg h8]

theorem view_mix (r : SerpentRegs) (v : SView) (h : v.distinct = true) (k : Quad) :
    (let r1 := r.set v.1 (r.get v.1 ^^^ k.x0)
     let r2 := r1.set v.2.1 (r1.get v.2.1 ^^^ k.x1)
     let r3 := r2.set v.2.2.1 (r2.get v.2.2.1 ^^^ k.x2)
     let r4 := r3.set v.2.2.2 (r3.get v.2.2.2 ^^^ k.x3)
     r4.view v) = mix k (r.view v) := by
  have h' := h
  simp only [SView.distinct, ne_eq, decide_not, Bool.and_eq_true, Bool.not_eq_eq_eq_not,
    Bool.not_true, decide_eq_false_iff_not] at h
  obtain ⟨⟨⟨⟨⟨h1, h2⟩, h3⟩, h5⟩, h6⟩, h8⟩ := h
  simp only [SerpentRegs.view, SerpentRegs.get_set, if_true, if_neg h1, if_neg h2, if_neg h3,
    if_neg h5, if_neg h6, if_neg h8, if_neg (Ne.symm h1), if_neg (Ne.symm h2), if_neg (Ne.symm h3),
    if_neg (Ne.symm h5), if_neg (Ne.symm h6), if_neg (Ne.symm h8), mix]

theorem setQuad_length (mem : List Word) (o : Nat) (q : Quad) :
    (setQuad mem o q).length = mem.length := by
  simp only [setQuad, List.length_set]

theorem absOp_sound (v v' : SView) (s : SerpentState) (o : SerpentOp) (as : List AOp) (b' : Int)
    (h : absOp v s.base o = some (as, v', b')) (hm : s.mem.length = 132) :
    ∃ s' : SerpentState, o.step s = .ok s' ∧ s'.mem.length = 132 ∧ s'.base = b' ∧
      (s'.mem, s'.regs.view v') = as.foldl AOp.apply (s.mem, s.regs.view v) := by
  cases o with
  | mixKey a b c d i =>
    rw [absOp] at h
    split at h
    · rename_i hc
      obtain ⟨rfl, hd, hb, hi⟩ := hc
      cases h
      refine ⟨_, read4 s _ _ _ _ (4 * i) (by omega) (by omega) (by omega) (by omega) (by omega) _,
        hm, rfl, ?_⟩
      · refine congrArg (Prod.mk s.mem) ?_
        exact view_mix s.regs (a, b, c, d) hd (quadAt s.mem (4 * i))
    · cases h
  | encipherSbox n p =>
    rw [absOp] at h
    split at h
    · rename_i hc
      obtain ⟨hp, rfl, hn⟩ := hc
      cases h
      refine ⟨_, rfl, hm, rfl, ?_⟩
      refine congrArg (Prod.mk s.mem) ?_
      exact (expand_view s.regs _ p hp _).trans (encipherSbox_spec n hn _ _ _ _)
    · cases h
  | decipherSbox n p =>
    rw [absOp] at h
    split at h
    · rename_i hc
      obtain ⟨hp, rfl, hn⟩ := hc
      cases h
      refine ⟨_, rfl, hm, rfl, ?_⟩
      refine congrArg (Prod.mk s.mem) ?_
      exact (expand_view s.regs _ p hp _).trans (decipherSbox_spec n hn _ _ _ _)
    · cases h
  | encipherK p i =>
    rw [absOp] at h
    split at h
    · rename_i hc
      obtain ⟨hp, rfl, hb, hi⟩ := hc
      cases h
      refine ⟨_, read4 s _ _ _ _ (4 * i) (by omega) (by omega) (by omega) (by omega) (by omega) _,
        hm, rfl, ?_⟩
      refine congrArg (Prod.mk s.mem) ?_
      exact (expand_view s.regs _ p hp (.alpha, .beta, .gamma, .delta)).trans
        (encipherK_spec _ _ _ _ _ _ _ _)
    · cases h
  | decipherK p i =>
    rw [absOp] at h
    split at h
    · rename_i hc
      obtain ⟨hp, rfl, hb, hi⟩ := hc
      cases h
      refine ⟨_, read4 s _ _ _ _ (4 * i) (by omega) (by omega) (by omega) (by omega) (by omega) _,
        hm, rfl, ?_⟩
      refine congrArg (Prod.mk s.mem) ?_
      exact (expand_view s.regs _ p hp (.alpha, .beta, .gamma, .delta)).trans
        (decipherK_spec _ _ _ _ _ _ _ _)
    · cases h
  | load a b c d i =>
    rw [absOp] at h
    split at h
    · rename_i hc
      obtain ⟨hp, hb, hi⟩ := hc
      cases h
      refine ⟨_, read4 s _ _ _ _ (s.base + i).toNat (by omega) (by omega) (by omega) (by omega) (by omega) _,
        hm, rfl, ?_⟩
      refine congrArg (Prod.mk s.mem) ?_
      exact view_set4 s.regs (a, b, c, d) hp _
    · cases h
  | store a b c d i =>
    rw [absOp] at h
    split at h
    · rename_i hc
      obtain ⟨rfl, hb, hi⟩ := hc
      cases h
      obtain ⟨n, hn⟩ : ∃ n : Nat, s.base + i = n := ⟨(s.base + i).toNat, by omega⟩
      have e : SerpentOp.step s (.store a b c d i) =
          .ok { s with mem := setQuad s.mem n (s.regs.view (a, b, c, d)) } := by
        simp only [SerpentOp.step]
        rw [s.write_ok i _ n hn (by omega), Res.ok_bind,
          SerpentState.write_ok _ (i + 1) _ (n + 1) (by simp only []; omega) (by simp only [List.length_set]; omega),
          Res.ok_bind,
          SerpentState.write_ok _ (i + 2) _ (n + 2) (by simp only []; omega) (by simp only [List.length_set]; omega),
          Res.ok_bind,
          SerpentState.write_ok _ (i + 3) _ (n + 3) (by simp only []; omega) (by simp only [List.length_set]; omega)]
        rfl
      refine ⟨_, e, ?_, rfl, ?_⟩
      · rw [setQuad_length]; exact hm
      · rw [hn, Int.toNat_natCast]
        rfl
    · cases h
  | advance n =>
    cases h
    exact ⟨_, rfl, hm, rfl, rfl⟩
  | churnRead b c d i j => cases h
  | churn k b c d i j => cases h

theorem absOps_sound (os : List SerpentOp) : ∀ (v v' : SView) (s : SerpentState) (as : List AOp)
    (b' : Int), absOps v s.base os = some (as, v', b') → s.mem.length = 132 →
    ∃ s' : SerpentState, serpentRun os s = .ok s' ∧ s'.mem.length = 132 ∧ s'.base = b' ∧
      (s'.mem, s'.regs.view v') = as.foldl AOp.apply (s.mem, s.regs.view v) := by
  induction os with
  | nil =>
    intro v v' s as b' h hm
    cases h
    exact ⟨s, rfl, hm, rfl, rfl⟩
  | cons o os ih =>
    intro v v' s as b' h hm
    rw [absOps] at h
    split at h
    · cases h
    · rename_i as1 v1 b1 h1
      split at h
      · cases h
      · rename_i as2 v2 b2 h2
        cases h
        obtain ⟨s1, e1, l1, hb1, q1⟩ := absOp_sound v v1 s o as1 b1 h1 hm
        obtain ⟨s2, e2, l2, hb2, q2⟩ := ih v1 v' s1 as2 b' (by rw [hb1]; exact h2) l1
        refine ⟨s2, ?_, l2, hb2, ?_⟩
        · rw [serpentRun, e1, Res.ok_bind, e2]
        · rw [q2, q1, List.foldl_append]

end Wizard

import Verif.Model.Sha
import Verif.Model.MD5
import Verif.Spec.Hash
/-! The compression functions of the model are the published ones. -/
namespace Wizard
open Spec.Hash

theorem shaRotateLeft_eq (x : BitVec 32) {n : Nat} (h : n < 32) : shaRotateLeft x n = x.rotateLeft n := by
  rw [BitVec.rotateLeft_eq_rotateLeftAux_of_lt h]; rfl

theorem shaRotateRight_eq {w : Nat} (x : BitVec w) {n : Nat} (h : n < w) : shaRotateRight x n = x.rotateRight n := by
  rw [BitVec.rotateRight_eq_rotateRightAux_of_lt h]; rfl

/-! ### Loading the words -/

theorem ofNat_append {w : Nat} (v : BitVec w) (x : Byte) :
    BitVec.ofNat (w + 8) (256 * v.toNat + x.toNat) = v ++ x := by
  apply BitVec.eq_of_toNat_eq
  have hv := v.isLt; have hx := x.isLt
  have : 256 * v.toNat + x.toNat < 2 ^ (w + 8) := by rw [Nat.pow_add]; omega
  rw [BitVec.toNat_append, BitVec.toNat_ofNat, Nat.mod_eq_of_lt this, ← Nat.shiftLeft_add_eq_or_of_lt hx,
    Nat.shiftLeft_eq, Nat.mul_comm]

theorem foldl_bytes4 (a b c d : Byte) : BitVec.ofNat 32 ([a, b, c, d].foldl (fun v x => 256 * v + x.toNat) 0) =
    a ++ b ++ c ++ d := by
  show BitVec.ofNat (24 + 8) (256 * (256 * (256 * (256 * 0 + a.toNat) + b.toNat) + c.toNat) + d.toNat) = _
  rw [← ofNat_append (a ++ b ++ c) d, ← ofNat_append (a ++ b) c, ← ofNat_append a b]
  have := a.isLt; have := b.isLt; have := c.isLt
  simp only [BitVec.toNat_ofNat]
  rw [Nat.mod_eq_of_lt (by omega), Nat.mod_eq_of_lt (by omega), Nat.mul_zero, Nat.zero_add]

theorem foldl_bytes8 (a b c d e f g h : Byte) :
    BitVec.ofNat 64 ([a, b, c, d, e, f, g, h].foldl (fun v x => 256 * v + x.toNat) 0) =
    a ++ b ++ c ++ d ++ e ++ f ++ g ++ h := by
  have h4 := foldl_bytes4 a b c d
  simp only [List.foldl_cons, List.foldl_nil] at h4 ⊢
  have hl : 256 * (256 * (256 * (256 * 0 + a.toNat) + b.toNat) + c.toNat) + d.toNat < 2 ^ 32 := by
    have := a.isLt; have := b.isLt; have := c.isLt; have := d.isLt; omega
  generalize 256 * (256 * (256 * (256 * 0 + a.toNat) + b.toNat) + c.toNat) + d.toNat = v at h4 hl
  rw [← h4]
  show BitVec.ofNat (56 + 8) _ = _
  rw [← ofNat_append _ h, ← ofNat_append _ g, ← ofNat_append _ f, ← ofNat_append _ e]
  have := e.isLt; have := f.isLt; have := g.isLt
  simp only [BitVec.toNat_ofNat]
  rw [Nat.mod_eq_of_lt (by omega), Nat.mod_eq_of_lt (by omega), Nat.mod_eq_of_lt (by omega), Nat.mod_eq_of_lt (by omega)]

theorem masks32 : ∀ i < 32,
    (0x000000ff#32).getLsbD i = (decide (0 ≤ i) && decide (i < 8)) ∧
    (0x0000ff00#32).getLsbD i = (decide (8 ≤ i) && decide (i < 16)) ∧
    (0x00ff0000#32).getLsbD i = (decide (16 ≤ i) && decide (i < 24)) ∧
    (0xff000000#32).getLsbD i = (decide (24 ≤ i) && decide (i < 32)) := by decide +kernel

theorem masks64 : ∀ i < 64,
    (0x00000000000000ff#64).getLsbD i = (decide (0 ≤ i) && decide (i < 8)) ∧
    (0x000000000000ff00#64).getLsbD i = (decide (8 ≤ i) && decide (i < 16)) ∧
    (0x0000000000ff0000#64).getLsbD i = (decide (16 ≤ i) && decide (i < 24)) ∧
    (0x00000000ff000000#64).getLsbD i = (decide (24 ≤ i) && decide (i < 32)) ∧
    (0x000000ff00000000#64).getLsbD i = (decide (32 ≤ i) && decide (i < 40)) ∧
    (0x0000ff0000000000#64).getLsbD i = (decide (40 ≤ i) && decide (i < 48)) ∧
    (0x00ff000000000000#64).getLsbD i = (decide (48 ≤ i) && decide (i < 56)) ∧
    (0xff00000000000000#64).getLsbD i = (decide (56 ≤ i) && decide (i < 64)) := by decide +kernel

theorem shaSwap32_eq (a b c d : Byte) : shaSwap32 (a ++ b ++ c ++ d) = d ++ c ++ b ++ a := by
  unfold shaSwap32
  apply BitVec.eq_of_getLsbD_eq
  intro i hi
  obtain ⟨h0, h1, h2, h3⟩ := masks32 i hi
  simp only [BitVec.getLsbD_or, BitVec.getLsbD_and, BitVec.getLsbD_shiftLeft, BitVec.getLsbD_ushiftRight,
    BitVec.getLsbD_append]
  rw [h0, h1, h2, h3]
  rcases (show (0 ≤ i ∧ i < 8) ∨ (8 ≤ i ∧ i < 16) ∨ (16 ≤ i ∧ i < 24) ∨ (24 ≤ i ∧ i < 32) by omega) with h | h | h | h <;>
  · obtain ⟨g1, g2⟩ := h
    simp (disch := omega) only [if_pos, if_neg, decide_eq_true, decide_eq_false, Bool.and_true, Bool.and_false,
      Bool.true_and, Bool.false_and, Bool.or_false, Bool.false_or, Bool.not_true, Bool.not_false]
    all_goals first | rfl | (congr 1 <;> omega)

theorem shaSwap64_eq (a b c d e f g h : Byte) : shaSwap64 (a ++ b ++ c ++ d ++ e ++ f ++ g ++ h) =
    h ++ g ++ f ++ e ++ d ++ c ++ b ++ a := by
  unfold shaSwap64
  apply BitVec.eq_of_getLsbD_eq
  intro i hi
  obtain ⟨h0, h1, h2, h3, h4, h5, h6, h7⟩ := masks64 i hi
  simp only [BitVec.getLsbD_or, BitVec.getLsbD_and, BitVec.getLsbD_shiftLeft, BitVec.getLsbD_ushiftRight,
    BitVec.getLsbD_append]
  rw [h0, h1, h2, h3, h4, h5, h6, h7]
  rcases (show (0 ≤ i ∧ i < 8) ∨ (8 ≤ i ∧ i < 16) ∨ (16 ≤ i ∧ i < 24) ∨ (24 ≤ i ∧ i < 32) ∨ (32 ≤ i ∧ i < 40) ∨ (40 ≤ i ∧ i < 48) ∨ (48 ≤ i ∧ i < 56) ∨ (56 ≤ i ∧ i < 64) by omega) with h | h | h | h | h | h | h | h <;>
  · obtain ⟨g1, g2⟩ := h
    simp (disch := omega) only [if_pos, if_neg, decide_eq_true, decide_eq_false, Bool.and_true, Bool.and_false,
      Bool.true_and, Bool.false_and, Bool.or_false, Bool.false_or, Bool.not_true, Bool.not_false]
    all_goals first | rfl | (congr 1 <;> omega)

theorem length4 {l : List Byte} (h : l.length = 4) : ∃ a b c d, l = [a, b, c, d] := by
  match l, h with
  | [a, b, c, d], _ => exact ⟨a, b, c, d, rfl⟩

theorem length8 {l : List Byte} (h : l.length = 8) : ∃ a b c d e f g i, l = [a, b, c, d, e, f, g, i] := by
  match l, h with
  | [a, b, c, d, e, f, g, i], _ => exact ⟨a, b, c, d, e, f, g, i, rfl⟩

theorem shaLoad32_getD (lsb : Bool) {b : List Byte} (hb : b.length = 64) {i : Nat} (hi : i < 16) :
    (shaLoad32 lsb b).getD i 0 = SHA2.word 32 b i := by
  unfold shaLoad32
  rw [List.getD_eq_getElem?_getD, List.getElem?_map, List.getElem?_range hi]
  show (if lsb = true then _ else _) = _
  have hl : ((b.drop (4 * i)).take 4).length = 4 := by simp; omega
  obtain ⟨c0, c1, c2, c3, hc⟩ := length4 hl
  unfold shaHostRead SHA2.word
  simp only [Nat.reduceDiv]
  rw [hc]
  cases lsb
  · rfl
  · show shaSwap32 (BitVec.ofNat 32 ([c3, c2, c1, c0].foldl (fun v x => 256 * v + x.toNat) 0)) = _
    rw [foldl_bytes4, foldl_bytes4, shaSwap32_eq]

theorem shaLoad64_getD (lsb : Bool) {b : List Byte} (hb : b.length = 128) {i : Nat} (hi : i < 16) :
    (shaLoad64 lsb b).getD i 0 = SHA2.word 64 b i := by
  unfold shaLoad64
  rw [List.getD_eq_getElem?_getD, List.getElem?_map, List.getElem?_range hi]
  show (if lsb = true then _ else _) = _
  have hl : ((b.drop (8 * i)).take 8).length = 8 := by simp; omega
  obtain ⟨c0, c1, c2, c3, c4, c5, c6, c7, hc⟩ := length8 hl
  unfold shaHostRead SHA2.word
  simp only [Nat.reduceDiv]
  rw [hc]
  cases lsb
  · rfl
  · show shaSwap64 (BitVec.ofNat 64 ([c7, c6, c5, c4, c3, c2, c1, c0].foldl (fun v x => 256 * v + x.toNat) 0)) = _
    rw [foldl_bytes8, foldl_bytes8, shaSwap64_eq]

theorem word32_eq {b : List Byte} (hb : b.length = 64) {i : Nat} (hi : i < 16) : SHA2.word 32 b i = word32 b i := by
  have hl : ((b.drop (4 * i)).take 4).length = 4 := by simp; omega
  obtain ⟨c0, c1, c2, c3, hc⟩ := length4 hl
  unfold SHA2.word word32
  simp only [Nat.reduceDiv]
  have key : ∀ k < 4, b.getD (4 * i + k) 0 = [c0, c1, c2, c3].getD k 0 := by
    intro k hk
    rw [← hc]
    simp only [List.getD_eq_getElem?_getD]
    rw [List.getElem?_take_of_lt hk, List.getElem?_drop]
  rw [hc, foldl_bytes4]
  have k0 := key 0 (by decide); have k1 := key 1 (by decide); have k2 := key 2 (by decide)
  have k3 := key 3 (by decide)
  rw [Nat.add_zero] at k0
  rw [k0, k1, k2, k3]; rfl

/-! ### Schedules -/

theorem getD_append_lt {α : Type} {l m : List α} {i : Nat} {d : α} (h : i < l.length) :
    (l ++ m).getD i d = l.getD i d := by
  rw [List.getD_eq_getElem?_getD, List.getD_eq_getElem?_getD, List.getElem?_append_left h]

theorem getD_append_eq {α : Type} {l : List α} {x d : α} : (l ++ [x]).getD l.length d = x := by
  rw [List.getD_eq_getElem?_getD, List.getElem?_append_right (Nat.le_refl _)]; simp

theorem schedule_inv {α : Type} (d : α) (g : List α → Nat → α) (V : Nat → α) (W : List α) (h16 : W.length = 16)
    (h0 : ∀ i < 16, W.getD i d = V i)
    (hg : ∀ (l : List α) j, l.length = j + 16 → (∀ i < j + 16, l.getD i d = V i) → g l j = V (j + 16)) (n : Nat) :
    let R := (List.range n).foldl (fun W j => W ++ [g W j]) W
    R.length = n + 16 ∧ ∀ i < n + 16, R.getD i d = V i := by
  induction n with
  | zero => exact ⟨h16, fun i hi => h0 i (by omega)⟩
  | succ n ih =>
    obtain ⟨h1, h2⟩ := ih
    simp only [List.range_succ, List.foldl_append, List.foldl_cons, List.foldl_nil] at h1 h2 ⊢
    generalize (List.range n).foldl (fun W j => W ++ [g W j]) W = R at h1 h2
    refine ⟨by simp [h1, Nat.add_right_comm], fun i hi => ?_⟩
    by_cases hc : i < n + 16
    · rw [getD_append_lt (by omega)]; exact h2 i hc
    · have : i = R.length := by omega
      rw [this, getD_append_eq, hg R n h1 h2, h1]

theorem sha1W (b : List Byte) : ∀ i < 16, SHA1.W b i = word32 b i := by
  intro i hi
  match i, hi with
  | 0, _ | 1, _ | 2, _ | 3, _ | 4, _ | 5, _ | 6, _ | 7, _ | 8, _ | 9, _ | 10, _ | 11, _ | 12, _ | 13, _ | 14, _ | 15, _ =>
    simp only [SHA1.W]
  | n + 16, h => omega

theorem sha2W {w : Nat} (p : SHA2.Params) (b : List Byte) : ∀ i < 16, SHA2.W p b i = SHA2.word w b i := by
  intro i hi
  match i, hi with
  | 0, _ | 1, _ | 2, _ | 3, _ | 4, _ | 5, _ | 6, _ | 7, _ | 8, _ | 9, _ | 10, _ | 11, _ | 12, _ | 13, _ | 14, _ | 15, _ =>
    simp only [SHA2.W]
  | n + 16, h => omega

theorem sha1Schedule_eq (lsb : Bool) {b : List Byte} (hb : b.length = 64) :
    ∀ i < 80, (sha1Schedule (shaLoad32 lsb b)).getD i 0 = SHA1.W b i := by
  refine (schedule_inv (0 : BitVec 32)
    (fun W j => shaRotateLeft (W.getD (j + 16 - 3) 0 ^^^ W.getD (j + 16 - 8) 0 ^^^ W.getD (j + 16 - 14) 0 ^^^
      W.getD (j + 16 - 16) 0) 1) (SHA1.W b) (shaLoad32 lsb b) (by simp [shaLoad32]) ?_ ?_ 64).2
  · intro i hi
    rw [shaLoad32_getD lsb hb hi, word32_eq hb hi, sha1W b i hi]
  · intro l j hl h
    rw [shaRotateLeft_eq _ (by decide), h _ (by omega), h _ (by omega), h _ (by omega), h _ (by omega), SHA1.W.eq_def b (j + 16)]
    rfl

theorem sha2Schedule_eq {w : Nat} (s0 s1 : BitVec w → BitVec w) (p : SHA2.Params) (h0 : ∀ x, s0 x = SHA2.sig p.s0 x)
    (h1 : ∀ x, s1 x = SHA2.sig p.s1 x) (n : Nat) (L : List (BitVec w)) (hL : L.length = 16) (b : List Byte)
    (hb : ∀ i < 16, L.getD i 0 = SHA2.word w b i) :
    ∀ i < n + 16, (sha2Schedule s0 s1 n L).getD i 0 = SHA2.W p b i := by
  refine (schedule_inv (0 : BitVec w)
    (fun W j => s1 (W.getD (j + 16 - 2) 0) + W.getD (j + 16 - 7) 0 + s0 (W.getD (j + 16 - 15) 0) +
      W.getD (j + 16 - 16) 0) (SHA2.W p b) L hL ?_ ?_ n).2
  · intro i hi
    rw [hb i hi, sha2W p b i hi]
  · intro l j hl h
    rw [h0, h1, h _ (by omega), h _ (by omega), h _ (by omega), h _ (by omega), SHA2.W.eq_def p b (j + 16)]
    rfl

/-! ### Rounds -/

theorem sha1_ch (x y z : BitVec 32) : (x &&& y) ||| (~~~x &&& z) = (x &&& y) ^^^ (~~~x &&& z) := by
  apply BitVec.eq_of_getLsbD_eq
  intro i hi
  simp only [BitVec.getLsbD_or, BitVec.getLsbD_and, BitVec.getLsbD_xor, BitVec.getLsbD_not, hi, decide_true, Bool.true_and]
  cases x.getLsbD i <;> cases y.getLsbD i <;> cases z.getLsbD i <;> rfl

theorem sha1_maj (x y z : BitVec 32) : (x &&& y) ||| (x &&& z) ||| (y &&& z) = (x &&& y) ^^^ (x &&& z) ^^^ (y &&& z) := by
  apply BitVec.eq_of_getLsbD_eq
  intro i hi
  simp only [BitVec.getLsbD_or, BitVec.getLsbD_and, BitVec.getLsbD_xor]
  cases x.getLsbD i <;> cases y.getLsbD i <;> cases z.getLsbD i <;> rfl

/-- The registers of a value of the specification. -/
def sha1R (v : SHA1.V) : Sha1Regs := ⟨v.a, v.b, v.c, v.d, v.e⟩
/-- The accumulator holding a value. -/
def sha1Acc (v : SHA1.V) : List (BitVec 32) := [v.a, v.b, v.c, v.d, v.e]
def sha2R {w : Nat} (v : SHA2.V w) : Sha2Regs w := ⟨v.a, v.b, v.c, v.d, v.e, v.f, v.g, v.h⟩

theorem sha1K_eq : SHA1.K 0 = 0x5a827999 ∧ SHA1.K 20 = 0x6ed9eba1 ∧ SHA1.K 40 = 0x8F1bbcdc ∧ SHA1.K 60 = 0xca62c1d6 := by
  decide +kernel

theorem sha1K_of (t : Nat) : SHA1.K t = if t < 20 then 0x5a827999 else if t < 40 then 0x6ed9eba1 else
    if t < 60 then 0x8F1bbcdc else 0xca62c1d6 := by
  obtain ⟨h0, h1, h2, h3⟩ := sha1K_eq
  rw [← h0, ← h1, ← h2, ← h3]
  unfold SHA1.K
  by_cases c1 : t < 20
  · simp only [if_pos c1]; rfl
  · by_cases c2 : t < 40
    · simp only [if_neg c1, if_pos c2]; rfl
    · by_cases c3 : t < 60
      · simp only [if_neg c1, if_neg c2, if_pos c3]; rfl
      · simp only [if_neg c1, if_neg c2, if_neg c3]; rfl

theorem sha1Turn_eq (b : List Byte) (W : List (BitVec 32)) (t : Nat) (hW : W.getD t 0 = SHA1.W b t) (v : SHA1.V) :
    sha1Turn W (sha1R (SHA1.steps b t v)) t = sha1R (SHA1.steps b (t + 1) v) := by
  rw [SHA1.steps.eq_def b (t + 1) v]
  simp only []
  generalize SHA1.steps b t v = v
  unfold sha1Turn sha1R
  simp only [hW, shaRotateLeft_eq _ (show 5 < 32 by decide), shaRotateLeft_eq _ (show 30 < 32 by decide), sha1_ch,
    sha1_maj, sha1K_of, SHA1.f]
  by_cases c1 : t < 20
  · simp only [if_pos c1, Sha1Regs.mk.injEq, and_true]
    rw [BitVec.add_assoc _ (SHA1.W b t), BitVec.add_comm (SHA1.W b t), ← BitVec.add_assoc]
  · by_cases c2 : t < 40
    · simp only [if_neg c1, if_pos c2, Sha1Regs.mk.injEq, and_true]
      rw [BitVec.add_assoc _ (SHA1.W b t), BitVec.add_comm (SHA1.W b t), ← BitVec.add_assoc]
    · by_cases c3 : t < 60
      · simp only [if_neg c1, if_neg c2, if_pos c3, Sha1Regs.mk.injEq, and_true]
        rw [BitVec.add_assoc _ (SHA1.W b t), BitVec.add_comm (SHA1.W b t), ← BitVec.add_assoc]
      · simp only [if_neg c1, if_neg c2, if_neg c3, Sha1Regs.mk.injEq, and_true]
        rw [BitVec.add_assoc _ (SHA1.W b t), BitVec.add_comm (SHA1.W b t), ← BitVec.add_assoc]

theorem sha1Turns_eq (b : List Byte) (W : List (BitVec 32)) (v : SHA1.V) (n : Nat)
    (hW : ∀ t < n, W.getD t 0 = SHA1.W b t) :
    (List.range n).foldl (sha1Turn W) (sha1R v) = sha1R (SHA1.steps b n v) := by
  induction n with
  | zero => rfl
  | succ n ih =>
    rw [List.range_succ, List.foldl_append, ih fun t ht => hW t (by omega)]
    exact sha1Turn_eq b W n (hW n (by omega)) v

theorem transformSha1_eq (lsb : Bool) (v : SHA1.V) {b : List Byte} (hb : b.length = 64) :
    transformSha1 lsb (sha1Acc v) b = sha1Acc (SHA1.compress v b) := by
  unfold transformSha1
  have := sha1Turns_eq b (sha1Schedule (shaLoad32 lsb b)) v 80 (sha1Schedule_eq lsb hb)
  simp only [sha1Acc, List.getD_cons_zero, List.getD_cons_succ]
  unfold SHA1.compress
  rw [show (⟨v.a, v.b, v.c, v.d, v.e⟩ : Sha1Regs) = sha1R v from rfl, this]
  generalize SHA1.steps b 80 v = r
  unfold sha1R
  simp only [BitVec.add_comm]

/-! ### SHA-2 -/

theorem sha2K32_eq : ∀ t < 64, sha2K32.getD t 0 = SHA2.K t := by decide +kernel
theorem sha2K64_eq : ∀ t < 80, sha2K64.getD t 0 = SHA2.K t := by decide +kernel

theorem sha2Turns_eq {w : Nat} (S0 S1 : BitVec w → BitVec w) (p : SHA2.Params) (h0 : ∀ x, S0 x = SHA2.Sum p.S0 x)
    (h1 : ∀ x, S1 x = SHA2.Sum p.S1 x) (K W : List (BitVec w)) (b : List Byte) (v : SHA2.V w) (n : Nat)
    (hK : ∀ t < n, K.getD t 0 = SHA2.K t) (hW : ∀ t < n, W.getD t 0 = SHA2.W p b t) :
    (List.range n).foldl (sha2Turn S0 S1 K W) (sha2R v) = sha2R (SHA2.steps p b n v) := by
  induction n with
  | zero => rfl
  | succ n ih =>
    rw [List.range_succ, List.foldl_append, ih (fun t ht => hK t (by omega)) (fun t ht => hW t (by omega))]
    rw [SHA2.steps.eq_def p b (n + 1) v]
    show sha2Turn S0 S1 K W _ n = _
    unfold sha2Turn
    simp only [h0, h1, hK n (by omega), hW n (by omega), sha2R]
    rfl

theorem sigma32_eq : (∀ x, sigma0_32 x = SHA2.sig SHA2.p32.s0 x) ∧ (∀ x, sigma1_32 x = SHA2.sig SHA2.p32.s1 x) ∧
    (∀ x, suma0_32 x = SHA2.Sum SHA2.p32.S0 x) ∧ (∀ x, suma1_32 x = SHA2.Sum SHA2.p32.S1 x) := by
  refine ⟨fun x => ?_, fun x => ?_, fun x => ?_, fun x => ?_⟩ <;>
  · simp (disch := decide) only [sigma0_32, sigma1_32, suma0_32, suma1_32, shaRotateRight_eq]
    rfl

theorem sigma64_eq : (∀ x, sigma0_64 x = SHA2.sig SHA2.p64.s0 x) ∧ (∀ x, sigma1_64 x = SHA2.sig SHA2.p64.s1 x) ∧
    (∀ x, suma0_64 x = SHA2.Sum SHA2.p64.S0 x) ∧ (∀ x, suma1_64 x = SHA2.Sum SHA2.p64.S1 x) := by
  refine ⟨fun x => ?_, fun x => ?_, fun x => ?_, fun x => ?_⟩ <;>
  · simp (disch := decide) only [sigma0_64, sigma1_64, suma0_64, suma1_64, shaRotateRight_eq]
    rfl

theorem sha2Loop32_eq (lsb : Bool) (v : SHA2.V 32) {b : List Byte} (hb : b.length = 64) :
    sha2Loop32 lsb v.words b = sha2R (SHA2.steps SHA2.p32 b 64 v) := by
  obtain ⟨h1, h2, h3, h4⟩ := sigma32_eq
  exact sha2Turns_eq _ _ _ h3 h4 _ _ b v 64 sha2K32_eq
    (sha2Schedule_eq _ _ _ h1 h2 48 _ (by simp [shaLoad32]) b fun i hi => shaLoad32_getD lsb hb hi)

theorem transformSha256_eq (lsb : Bool) (v : SHA2.V 32) {b : List Byte} (hb : b.length = 64) :
    transformSha256 lsb v.words b = (SHA2.compress SHA2.p32 v b).words := by
  unfold transformSha256 SHA2.compress
  rw [sha2Loop32_eq lsb v hb, show SHA2.p32.rounds = 64 from rfl]
  generalize SHA2.steps SHA2.p32 b 64 v = r
  simp only [SHA2.V.words, List.getD_cons_zero, List.getD_cons_succ, sha2R, BitVec.add_comm]

theorem transformSha224_take (lsb : Bool) (v : SHA2.V 32) {b : List Byte} (hb : b.length = 64) :
    (transformSha224 lsb v.words b).take 7 = (SHA2.compress SHA2.p32 v b).words.take 7 := by
  unfold transformSha224 SHA2.compress
  rw [sha2Loop32_eq lsb v hb, show SHA2.p32.rounds = 64 from rfl]
  generalize SHA2.steps SHA2.p32 b 64 v = r
  simp only [SHA2.V.words, List.getD_cons_zero, List.getD_cons_succ, sha2R, BitVec.add_comm, List.take_succ_cons, List.take_zero]

theorem transformSha512_eq (lsb : Bool) (v : SHA2.V 64) {b : List Byte} (hb : b.length = 128) :
    transformSha512 lsb v.words b = (SHA2.compress SHA2.p64 v b).words := by
  unfold transformSha512
  obtain ⟨h1, h2, h3, h4⟩ := sigma64_eq
  have := sha2Turns_eq _ _ _ h3 h4 _ _ b v 80 sha2K64_eq
    (sha2Schedule_eq _ _ _ h1 h2 64 (shaLoad64 lsb b) (by simp [shaLoad64]) b fun i hi => shaLoad64_getD lsb hb hi)
  unfold SHA2.compress
  rw [show sha2Regs v.words = sha2R v from rfl, this, show SHA2.p64.rounds = 80 from rfl]
  generalize SHA2.steps SHA2.p64 b 80 v = r
  simp only [SHA2.V.words, List.getD_cons_zero, List.getD_cons_succ, sha2R, BitVec.add_comm]

theorem sha2_inits (lsb : Bool) : (sha224Alg lsb).init = SHA2.init224.words ∧ (sha256Alg lsb).init = SHA2.init256.words ∧
    (sha384Alg lsb).init = SHA2.init384.words ∧ (sha512Alg lsb).init = SHA2.init512.words := by
  refine ⟨?_, ?_, ?_, ?_⟩
  · show [_, _, _, _, _, _, _, _] = _; decide +kernel
  · show [_, _, _, _, _, _, _, _] = _; decide +kernel
  · show [_, _, _, _, _, _, _, _] = _; decide +kernel
  · show [_, _, _, _, _, _, _, _] = _; decide +kernel

end Wizard

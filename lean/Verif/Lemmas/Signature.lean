import Verif.Model.Signature
import Verif.Lemmas.HashInfo
/-! Lemmas on signature.c: its 64-bit words are those of SHA-256 with zeros before them. -/
namespace Wizard
open Spec.Hash

/-- A 32-bit word in a `size_t`. -/
def zw (x : BitVec 32) : BitVec 64 := x.setWidth 64

theorem zw_zero : zw 0 = 0 := by decide
theorem zw_low (x : BitVec 32) : (zw x).setWidth 32 = x := by simp [zw]
theorem zw_toNat (x : BitVec 32) : (zw x).toNat = x.toNat := by simp only [zw, BitVec.toNat_setWidth]; exact Nat.mod_eq_of_lt (by have := x.isLt; omega)

theorem trunc32_eq (x : BitVec 64) : trunc32 x = zw (x.setWidth 32) := by
  apply BitVec.eq_of_toNat_eq
  rw [zw_toNat, trunc32, BitVec.toNat_and, BitVec.toNat_setWidth, show (0xffffffff#64).toNat = 2 ^ 32 - 1 from rfl, Nat.and_two_pow_sub_one_eq_mod]

theorem zw_xor (x y : BitVec 32) : zw x ^^^ zw y = zw (x ^^^ y) := by simp [zw]
theorem zw_or (x y : BitVec 32) : zw x ||| zw y = zw (x ||| y) := by simp [zw]
theorem zw_shr (x : BitVec 32) (n : Nat) : ((zw x) >>> n).setWidth 32 = x >>> n := by
  apply BitVec.eq_of_toNat_eq
  rw [BitVec.toNat_setWidth, BitVec.toNat_ushiftRight, zw_toNat, BitVec.toNat_ushiftRight]
  refine Nat.mod_eq_of_lt (Nat.lt_of_le_of_lt ?_ x.isLt)
  rw [Nat.shiftRight_eq_div_pow]; exact Nat.div_le_self _ _

theorem sigRotate_eq (x : BitVec 32) (n : Nat) : sigRotate (zw x) n = zw (shaRotateRight x n) := by
  rw [sigRotate, trunc32_eq, BitVec.setWidth_or, zw_shr, BitVec.setWidth_shiftLeft_of_le (by omega), zw_low]; rfl

theorem sigSigma0_eq (x : BitVec 32) : sigSigma0 (zw x) = zw (sigma0_32 x) := by
  simp only [sigSigma0, sigma0_32, sigRotate_eq, trunc32_eq, zw_shr, zw_xor]
theorem sigSigma1_eq (x : BitVec 32) : sigSigma1 (zw x) = zw (sigma1_32 x) := by
  simp only [sigSigma1, sigma1_32, sigRotate_eq, trunc32_eq, zw_shr, zw_xor]
theorem sigSuma0_eq (x : BitVec 32) : sigSuma0 (zw x) = zw (suma0_32 x) := by
  simp only [sigSuma0, suma0_32, sigRotate_eq, zw_xor]
theorem sigSuma1_eq (x : BitVec 32) : sigSuma1 (zw x) = zw (suma1_32 x) := by
  simp only [sigSuma1, suma1_32, sigRotate_eq, zw_xor]

theorem add_low (x y : BitVec 64) : (x + y).setWidth 32 = x.setWidth 32 + y.setWidth 32 := BitVec.setWidth_add x y (by omega)

theorem sigCh_low (x y z : BitVec 32) : (sigCh (zw x) (zw y) (zw z)).setWidth 32 = shaCh x y z := by
  simp only [sigCh, shaCh, BitVec.setWidth_xor, BitVec.setWidth_and, BitVec.setWidth_not (show 32 ≤ 64 by omega), zw_low]
theorem sigMaj_low (x y z : BitVec 32) : (sigMaj (zw x) (zw y) (zw z)).setWidth 32 = shaMaj x y z := by
  simp only [sigMaj, shaMaj, BitVec.setWidth_xor, BitVec.setWidth_and, zw_low]

theorem sigK_eq : sigK = sha2K32.map zw := by decide +kernel

theorem getD_zw (W : List (BitVec 32)) (i : Nat) : (W.map zw).getD i 0 = zw (W.getD i 0) := by
  rw [List.getD_eq_getElem?_getD, List.getD_eq_getElem?_getD, List.getElem?_map]
  cases W[i]? with
  | none => exact zw_zero.symm
  | some x => rfl

theorem sigSchedule_eq (W : List (BitVec 32)) : sigSchedule (W.map zw) = (sha2Schedule sigma0_32 sigma1_32 48 W).map zw := by
  unfold sigSchedule sha2Schedule
  generalize List.range 48 = l
  induction l generalizing W with
  | nil => rfl
  | cons j l ih =>
    simp only [List.foldl_cons]
    rw [← ih, List.map_append, List.map_cons, List.map_nil]
    simp only [getD_zw, trunc32_eq, add_low, sigSigma1_eq, sigSigma0_eq, zw_low]

/-- Registers. -/
def zwR (r : Sha2Regs 32) : Sha2Regs 64 := ⟨zw r.A, zw r.B, zw r.C, zw r.D, zw r.E, zw r.F, zw r.G, zw r.H⟩

theorem sigTurn_eq (W : List (BitVec 32)) (r : Sha2Regs 32) (j : Nat) :
    sigTurn (W.map zw) (zwR r) j = zwR (sha2Turn suma0_32 suma1_32 sha2K32 W r j) := by
  simp only [sigTurn, sha2Turn, zwR, sigK_eq, getD_zw, trunc32_eq, add_low, sigSuma0_eq, sigSuma1_eq, sigCh_low, sigMaj_low, zw_low]

theorem sigTurns_eq (W : List (BitVec 32)) (l : List Nat) (r : Sha2Regs 32) :
    l.foldl (sigTurn (W.map zw)) (zwR r) = zwR (l.foldl (sha2Turn suma0_32 suma1_32 sha2K32 W) r) := by
  induction l generalizing r with
  | nil => rfl
  | cons j l ih => simp only [List.foldl_cons, sigTurn_eq, ih]

theorem masks64w : ∀ i < 64,
    (0xff000000#64).getLsbD i = (decide (24 ≤ i) && decide (i < 32)) ∧ (0x00ff0000#64).getLsbD i = (decide (16 ≤ i) && decide (i < 24)) ∧
    (0x0000ff00#64).getLsbD i = (decide (8 ≤ i) && decide (i < 16)) ∧ (0x000000ff#64).getLsbD i = decide (i < 8) := by decide +kernel

theorem sigSwap_eq (T : BitVec 64) : sigSwap T = zw (shaSwap32 (T.setWidth 32)) := by
  apply BitVec.eq_of_getLsbD_eq
  intro i hi
  obtain ⟨m1, m2, m3, m4⟩ := masks64w i hi
  simp only [sigSwap, zw, shaSwap32, BitVec.getLsbD_setWidth, BitVec.getLsbD_or, BitVec.getLsbD_and, BitVec.getLsbD_shiftLeft, BitVec.getLsbD_ushiftRight, m1, m2, m3, m4]
  by_cases h : i < 32
  · obtain ⟨n1, n2, n3, n4⟩ := masks32 i h
    simp only [n1, n2, n3, n4]
    grind
  · grind

theorem sigLoad_eq (lsb : Bool) {b : List Byte} (hb : b.length = 64) : sigLoad lsb b = (shaLoad32 lsb b).map zw := by
  have h : ∀ j < 8, (let T := shaHostRead 64 lsb b j
      if lsb then [sigSwap T, sigSwap (T >>> 32)] else [trunc32 (T >>> 32), trunc32 T]) =
      [zw (if lsb then shaSwap32 (shaHostRead 32 lsb b (2 * j)) else shaHostRead 32 lsb b (2 * j)),
       zw (if lsb then shaSwap32 (shaHostRead 32 lsb b (2 * j + 1)) else shaHostRead 32 lsb b (2 * j + 1))] := by
    intro j hj
    have hl : ((b.drop (8 * j)).take 8).length = 8 := by simp; omega
    obtain ⟨c0, c1, c2, c3, c4, c5, c6, c7, hc⟩ := length8 hl
    have h1 : (b.drop (4 * (2 * j))).take 4 = [c0, c1, c2, c3] := by
      have := congrArg (List.take 4) hc
      rw [List.take_take] at this
      rw [show 4 * (2 * j) = 8 * j by omega]
      exact this
    have h2 : (b.drop (4 * (2 * j + 1))).take 4 = [c4, c5, c6, c7] := by
      have := congrArg (fun l => (List.drop 4 l)) hc
      simp only [List.drop_take, List.drop_drop] at this
      rw [show 4 * (2 * j + 1) = 8 * j + 4 by omega]
      exact this
    have e64 : ∀ (a b c d e f g h : Byte), BitVec.ofNat 64 ([a, b, c, d, e, f, g, h].foldl (fun v x => 256 * v + x.toNat) 0) =
        (a ++ b ++ c ++ d ++ e ++ f ++ g ++ h : BitVec 64) := foldl_bytes8
    have lo : ∀ (x y : BitVec 32), (x ++ y : BitVec 64).setWidth 32 = y := by
      intro x y
      apply BitVec.eq_of_getLsbD_eq
      intro i hi
      simp only [BitVec.getLsbD_setWidth, BitVec.getLsbD_append]
      grind
    have hi : ∀ (x y : BitVec 32), ((x ++ y : BitVec 64) >>> 32).setWidth 32 = x := by
      intro x y
      apply BitVec.eq_of_getLsbD_eq
      intro i hi
      simp only [BitVec.getLsbD_setWidth, BitVec.getLsbD_ushiftRight, BitVec.getLsbD_append]
      grind
    have as : ∀ (a b c d e f g h : Byte), (a ++ b ++ c ++ d ++ e ++ f ++ g ++ h : BitVec 64) = ((a ++ b ++ c ++ d : BitVec 32) ++ (e ++ f ++ g ++ h : BitVec 32) : BitVec 64) := by
      intro a b c d e f g h
      apply BitVec.eq_of_getLsbD_eq
      intro i hi
      simp only [BitVec.getLsbD_append]
      grind
    simp only [shaHostRead, Nat.reduceDiv, hc, h1, h2]
    cases lsb
    · simp only [Bool.false_eq_true, if_false, e64, as, trunc32_eq, lo, hi, foldl_bytes4]
    · simp only [if_true, List.reverse_cons, List.reverse_nil, List.nil_append, List.cons_append, e64, as, sigSwap_eq, lo, hi, foldl_bytes4]
  unfold sigLoad shaLoad32
  rw [show List.range 16 = (List.range 8).flatMap (fun j => [2 * j, 2 * j + 1]) from by decide, List.map_flatMap]
  rw [List.map_flatMap]
  rw [List.flatMap_def, List.flatMap_def]
  congr 1
  refine List.map_congr_left fun j hj => ?_
  exact h j (List.mem_range.mp hj)

theorem transformSignature_eq (lsb : Bool) (s : SignatureInfo) (v : SHA2.V 32) (hs : s.message.length = 64) (hv : s.digest = v.words.map zw) :
    (transformSignature lsb s).digest = (SHA2.compress SHA2.p32 v s.message).words.map zw := by
  rw [← transformSha256_eq lsb v hs]
  simp only [transformSignature, transformSha256, sha2Loop32]
  rw [hv, sigLoad_eq lsb hs, sigSchedule_eq, show sha2Regs (v.words.map zw) = zwR (sha2Regs v.words) from rfl, sigTurns_eq]
  simp only [getD_zw, trunc32_eq, add_low, zwR, zw_low, List.map_cons, List.map_nil]

end Wizard

import Verif.Model.SHA3
import Verif.Spec.Keccak
import Verif.Lemmas.Hash
import Verif.Lemmas.HashTransform
/-! SHA-3: the permutation is Keccak-f[1600], and the buffering invariant of the sponge. -/
namespace Wizard
open Spec Spec.Keccak Spec.Hash

theorem sha3RotateLeft_eq (x : BitVec 64) {n : Nat} (h : n < 64) : sha3RotateLeft x n = x.rotateLeft n := by
  unfold sha3RotateLeft
  by_cases h0 : n = 0
  · subst h0
    rw [if_neg (by decide), BitVec.rotateLeft_eq_rotateLeftAux_of_lt h]
    unfold BitVec.rotateLeftAux
    apply BitVec.eq_of_getLsbD_eq
    intro i hi
    have : x.getLsbD (64 - 0 + i) = false := BitVec.getLsbD_of_ge x _ (by omega)
    simp only [BitVec.getLsbD_or, BitVec.getLsbD_shiftLeft, BitVec.getLsbD_ushiftRight, this]
    simp [hi]
  · rw [if_pos h0, BitVec.rotateLeft_eq_rotateLeftAux_of_lt h]
    unfold BitVec.rotateLeftAux
    apply BitVec.eq_of_getLsbD_eq
    intro i hi
    simp only [BitVec.getLsbD_xor, BitVec.getLsbD_or, BitVec.getLsbD_shiftLeft, BitVec.getLsbD_ushiftRight]
    by_cases hc : i < n
    · simp [hc]
    · have : x.getLsbD (64 - n + i) = false := BitVec.getLsbD_of_ge x _ (by omega)
      rw [this]; simp

/-- The words of a state array, in the order of the model. -/
def keccakL (A : State) : List (BitVec 64) := (List.range 25).map fun i => A (i % 5) (i / 5)

theorem keccakL_length (A : State) : (keccakL A).length = 25 := by simp [keccakL]

theorem keccakL_get (A : State) {k : Nat} (hk : k < 25) : (keccakL A)[k]? = some (A (k % 5) (k / 5)) := by
  rw [keccakL, List.getElem?_map, List.getElem?_range hk]; rfl

theorem keccakL_getD (A : State) (x y : Nat) : (keccakL A).getD (sha3Index x y) 0 = A (x % 5) (y % 5) := by
  have : sha3Index x y < 25 := by unfold sha3Index; omega
  rw [List.getD_eq_getElem?_getD, keccakL_get A this]
  unfold sha3Index
  rw [show (x % 5 + 5 * (y % 5)) % 5 = x % 5 by omega, show (x % 5 + 5 * (y % 5)) / 5 = y % 5 by omega]; rfl

theorem keccakL_ext {l : List (BitVec 64)} {A : State} (hl : l.length = 25)
    (h : ∀ k < 25, l[k]? = some (A (k % 5) (k / 5))) : l = keccakL A := by
  apply List.ext_getElem?
  intro k
  by_cases hk : k < 25
  · rw [h k hk, keccakL_get A hk]
  · rw [List.getElem?_eq_none (by omega), List.getElem?_eq_none (by rw [keccakL_length]; omega)]

/-- A loop that replaces the elements at distinct places, each from its own old value. -/
theorem foldl_set_own {α β : Type} (ix : α → Nat) (v : α → β → β) (z : β) (ps : List α) :
    ∀ (s : List β), (ps.map ix).Nodup → ∀ k,
    (ps.foldl (fun s p => s.set (ix p) (v p (s.getD (ix p) z))) s)[k]? =
      match ps.find? (fun p => ix p == k) with
      | some p => s[k]?.map (v p)
      | none => s[k]? := by
  induction ps with
  | nil => intro s _ k; rfl
  | cons p ps ih =>
    intro s hn k
    rw [List.map_cons, List.nodup_cons] at hn
    rw [List.foldl_cons, ih _ hn.2 k]
    by_cases hk : ix p = k
    · subst hk
      have hf : ps.find? (fun q => ix q == ix p) = none := by
        rw [List.find?_eq_none]
        intro q hq hc
        exact hn.1 (List.mem_map.mpr ⟨q, hq, by simpa using hc⟩)
      rw [hf, List.find?_cons_of_pos (by simp)]
      simp only [List.getElem?_set, List.getD_eq_getElem?_getD]
      by_cases hl : ix p < s.length
      · rw [List.getElem?_eq_getElem hl]; simp [hl]
      · rw [List.getElem?_eq_none (by omega : s.length ≤ ix p)]; simp [hl]
    · rw [List.find?_cons_of_neg (by simpa using hk)]
      have : (s.set (ix p) (v p (s.getD (ix p) z)))[k]? = s[k]? := List.getElem?_set_ne hk
      rw [this]

theorem foldl_set_length {α β : Type} (ix : α → Nat) (v : α → List β → β) (ps : List α) :
    ∀ s : List β, (ps.foldl (fun s p => s.set (ix p) (v p s)) s).length = s.length := by
  induction ps with
  | nil => intro s; rfl
  | cons p ps ih => intro s; rw [List.foldl_cons, ih, List.length_set]

theorem sha3Pairs_nodup : (sha3Pairs.map fun p => sha3Index p.1 p.2).Nodup := by decide +kernel

theorem sha3Pairs_find : ∀ k < 25, sha3Pairs.find? (fun p => sha3Index p.1 p.2 == k) = some (k % 5, k / 5) := by
  decide +kernel

theorem sha3_updateL (g : Nat × Nat → BitVec 64 → BitVec 64) (A : State) :
    sha3Pairs.foldl (fun s xy => s.set (sha3Index xy.1 xy.2) (g xy (s.getD (sha3Index xy.1 xy.2) 0))) (keccakL A) =
    keccakL (fun x y => g (x, y) (A x y)) := by
  apply keccakL_ext
  · rw [foldl_set_length (fun p : Nat × Nat => sha3Index p.1 p.2)
      (fun p s => g p (s.getD (sha3Index p.1 p.2) 0)), keccakL_length]
  · intro k hk
    rw [foldl_set_own (fun p : Nat × Nat => sha3Index p.1 p.2) g 0 _ _ sha3Pairs_nodup, sha3Pairs_find k hk,
      keccakL_get A hk]; rfl

theorem range5_getD {x : Nat} (f : Nat → BitVec 64) (hx : x < 5) : ((List.range 5).map f).getD x 0 = f x := by
  rw [List.getD_eq_getElem?_getD, List.getElem?_map, List.getElem?_range hx]; rfl

theorem sha3Theta_eq (A : State) : sha3Theta (keccakL A) = keccakL (theta A) := by
  have hC : ((List.range 5).map fun x => (List.range 5).foldl (fun c y => c ^^^ (keccakL A).getD (sha3Index x y) 0) 0) =
      (List.range 5).map fun x => A x 0 ^^^ A x 1 ^^^ A x 2 ^^^ A x 3 ^^^ A x 4 := by
    refine List.map_congr_left fun x hx => ?_
    have hx : x < 5 := List.mem_range.mp hx
    simp only [keccakL_getD, Nat.mod_eq_of_lt hx]
    show (0#64) ^^^ _ ^^^ _ ^^^ _ ^^^ _ ^^^ _ = _
    rw [BitVec.zero_xor]
  unfold sha3Theta
  simp only [hC]
  rw [sha3_updateL (fun xy a => a ^^^ ((List.range 5).map fun x => sha3RotateLeft (((List.range 5).map fun x =>
    A x 0 ^^^ A x 1 ^^^ A x 2 ^^^ A x 3 ^^^ A x 4).getD ((x + 1) % 5) 0) 1 ^^^ ((List.range 5).map fun x =>
    A x 0 ^^^ A x 1 ^^^ A x 2 ^^^ A x 3 ^^^ A x 4).getD ((x + 4) % 5) 0).getD xy.1 0)]
  unfold keccakL
  refine List.map_congr_left fun i _ => ?_
  have hi : i % 5 < 5 := Nat.mod_lt _ (by decide)
  unfold theta
  simp only [range5_getD _ hi, range5_getD _ (Nat.mod_lt _ (show 0 < 5 by decide)),
    sha3RotateLeft_eq _ (show 1 < 64 by decide)]
  rw [BitVec.xor_comm (BitVec.rotateLeft _ _), BitVec.xor_assoc (A (i % 5) (i / 5))]

theorem sha3Rho_eq : ∀ y < 5, ∀ x < 5, sha3Rho.getD (sha3Index x y) 0 = offset x y ∧ offset x y < 64 := by decide +kernel

theorem sha3RhoStep_eq (A : State) : sha3RhoStep (keccakL A) = keccakL (rho A) := by
  unfold sha3RhoStep
  rw [sha3_updateL (fun xy a => sha3RotateLeft a (sha3Rho.getD (sha3Index xy.1 xy.2) 0))]
  unfold keccakL rho
  refine List.map_congr_left fun i hi => ?_
  have hi : i < 25 := List.mem_range.mp hi
  obtain ⟨h1, h2⟩ := sha3Rho_eq (i / 5) (by omega) (i % 5) (by omega)
  simp only [h1]
  exact sha3RotateLeft_eq _ h2

theorem sha3Pi_nodup :
    (sha3Pairs.map fun xy => sha3Index (0 * xy.1 + 1 * xy.2) (2 * xy.1 + 3 * xy.2)).Nodup := by decide +kernel

theorem sha3Pi_find : ∀ k < 25, sha3Pairs.find? (fun xy => sha3Index (0 * xy.1 + 1 * xy.2) (2 * xy.1 + 3 * xy.2) == k) =
    some ((k % 5 + 3 * (k / 5)) % 5, k % 5) := by decide +kernel

theorem sha3Pi_eq (A : State) : sha3Pi (keccakL A) = keccakL (pi A) := by
  unfold sha3Pi
  apply keccakL_ext
  · rw [foldl_set_length (fun xy : Nat × Nat => sha3Index (0 * xy.1 + 1 * xy.2) (2 * xy.1 + 3 * xy.2))
      (fun xy _ => (keccakL A).getD (sha3Index xy.1 xy.2) 0), keccakL_length]
  · intro k hk
    rw [foldl_set_own (fun xy : Nat × Nat => sha3Index (0 * xy.1 + 1 * xy.2) (2 * xy.1 + 3 * xy.2))
      (fun xy _ => (keccakL A).getD (sha3Index xy.1 xy.2) 0) 0 _ _ sha3Pi_nodup, sha3Pi_find k hk,
      keccakL_get A hk]
    simp only [Option.map_some, keccakL_getD, Nat.mod_mod]
    rfl

theorem sha3Row_nodup : ∀ y < 5, ((List.range 5).map fun x => sha3Index x y).Nodup := by decide +kernel

theorem sha3Row_find : ∀ y < 5, ∀ k < 25, (List.range 5).find? (fun x => sha3Index x y == k) =
    if k / 5 = y then some (k % 5) else none := by decide +kernel

/-- The turn of the chi loop for one row. -/
def sha3ChiRow (s : List (BitVec 64)) (y : Nat) : List (BitVec 64) :=
  let C := (List.range 5).map fun x =>
    s.getD (sha3Index x y) 0 ^^^ (~~~s.getD (sha3Index (x + 1) y) 0 &&& s.getD (sha3Index (x + 2) y) 0)
  (List.range 5).foldl (fun s x => s.set (sha3Index x y) (C.getD x 0)) s

theorem sha3ChiRow_eq (A : State) {y : Nat} (hy : y < 5) :
    sha3ChiRow (keccakL A) y = keccakL (fun i j => if j = y then chi A i j else A i j) := by
  unfold sha3ChiRow
  apply keccakL_ext
  · rw [foldl_set_length (fun x => sha3Index x y) (fun x _ => _), keccakL_length]
  · intro k hk
    rw [foldl_set_own (fun x => sha3Index x y) (fun x _ => _) 0 _ _ (sha3Row_nodup y hy), sha3Row_find y hy k hk,
      keccakL_get A hk]
    by_cases h : k / 5 = y
    · rw [if_pos h, if_pos h]
      subst h
      simp only [Option.map_some]
      rw [range5_getD _ (Nat.mod_lt _ (by decide))]
      simp only [keccakL_getD, Nat.mod_mod, Nat.mod_eq_of_lt hy]
      rfl
    · rw [if_neg h, if_neg h]

theorem sha3Chi_eq (A : State) : sha3Chi (keccakL A) = keccakL (chi A) := by
  have h : ∀ n ≤ 5, (List.range n).foldl sha3ChiRow (keccakL A) =
      keccakL (fun i j => if j < n then chi A i j else A i j) := by
    intro n hn
    induction n with
    | zero => simp
    | succ n ih =>
      rw [List.range_succ, List.foldl_append, ih (by omega)]
      show sha3ChiRow _ n = _
      rw [sha3ChiRow_eq _ (by omega)]
      congr 1
      funext i j
      by_cases h1 : j = n
      · subst h1
        simp [chi]
      · by_cases h2 : j < n
        · simp [h1, h2, show j < n + 1 by omega]
        · simp [h1, h2, show ¬ j < n + 1 by omega]
  have h5 := h 5 (Nat.le_refl _)
  show (List.range 5).foldl sha3ChiRow (keccakL A) = _
  rw [h5]
  unfold keccakL
  refine List.map_congr_left fun i hi => ?_
  have hi : i < 25 := List.mem_range.mp hi
  simp [show i / 5 < 5 by omega]

theorem sha3Rounds_eq : ∀ i < 24, sha3Rounds.getD i 0 = RC i := by decide +kernel

theorem sha3Iota_eq (i : Nat) (hi : i < 24) (A : State) : sha3Iota i (keccakL A) = keccakL (iota i A) := by
  unfold sha3Iota
  rw [sha3Rounds_eq i hi, keccakL_getD]
  generalize hc : RC i = c
  apply keccakL_ext
  · rw [List.length_set, keccakL_length]
  · intro k hk
    unfold iota
    rw [hc]
    by_cases h : k = 0
    · subst h
      rw [show sha3Index 0 0 = 0 from rfl, List.getElem?_set_self (by rw [keccakL_length]; decide)]; rfl
    · rw [show sha3Index 0 0 = 0 from rfl, List.getElem?_set_ne (fun h' => h h'.symm), keccakL_get A hk,
        if_neg (by omega)]

theorem sha3PermutationOnWords_eq (A : State) : sha3PermutationOnWords (keccakL A) = keccakL (rounds 24 A) := by
  have : ∀ n ≤ 24, (List.range n).foldl (fun s i => sha3Iota i (sha3Chi (sha3Pi (sha3RhoStep (sha3Theta s))))) (keccakL A) =
      keccakL (rounds n A) := by
    intro n hn
    induction n with
    | zero => rfl
    | succ n ih =>
      rw [List.range_succ, List.foldl_append, ih (by omega)]
      rw [List.foldl_cons, List.foldl_nil, rounds, sha3Theta_eq, sha3RhoStep_eq, sha3Pi_eq, sha3Chi_eq,
        sha3Iota_eq n (by omega)]
  exact this 24 (Nat.le_refl _)

theorem orBytes8 (c0 c1 c2 c3 c4 c5 c6 c7 : Byte) :
    (0 : BitVec 64) ||| c0.setWidth 64 <<< 0 ||| c1.setWidth 64 <<< 8 ||| c2.setWidth 64 <<< 16 ||| c3.setWidth 64 <<< 24
      ||| c4.setWidth 64 <<< 32 ||| c5.setWidth 64 <<< 40 ||| c6.setWidth 64 <<< 48 ||| c7.setWidth 64 <<< 56 =
    c7 ++ c6 ++ c5 ++ c4 ++ c3 ++ c2 ++ c1 ++ c0 := by
  apply BitVec.eq_of_getLsbD_eq
  intro i hi
  have hb : ∀ (x : Byte) k, 8 ≤ k → x.getLsbD k = false := fun x k h => BitVec.getLsbD_of_ge x k h
  have h0 : (0 : BitVec 64).getLsbD i = false := BitVec.getLsbD_zero
  simp only [BitVec.getLsbD_or, BitVec.getLsbD_shiftLeft, BitVec.getLsbD_append, BitVec.getLsbD_setWidth, h0]
  rcases (show (0 ≤ i ∧ i < 8) ∨ (8 ≤ i ∧ i < 16) ∨ (16 ≤ i ∧ i < 24) ∨ (24 ≤ i ∧ i < 32) ∨ (32 ≤ i ∧ i < 40) ∨
    (40 ≤ i ∧ i < 48) ∨ (48 ≤ i ∧ i < 56) ∨ (56 ≤ i ∧ i < 64) by omega) with h | h | h | h | h | h | h | h <;>
  · simp (disch := omega) only [if_pos, if_neg, decide_eq_true, decide_eq_false, Bool.and_true, Bool.and_false, hb,
      Bool.true_and, Bool.false_and, Bool.or_false, Bool.false_or, Bool.not_true, Bool.not_false, Nat.sub_sub, Nat.sub_zero]

theorem sha3ToWords_eq {b : List Byte} (hb : b.length = 200) : sha3ToWords b = keccakL (lanes b) := by
  unfold sha3ToWords keccakL
  refine List.map_congr_left fun i hi => ?_
  have hi : i < 25 := List.mem_range.mp hi
  unfold lanes
  rw [show 5 * (i / 5) + i % 5 = i by omega]
  have hl : ((b.drop (8 * i)).take 8).length = 8 := by simp; omega
  obtain ⟨c0, c1, c2, c3, c4, c5, c6, c7, hc⟩ := length8 hl
  have key : ∀ k < 8, b.getD (i * 8 + k) 0 = [c0, c1, c2, c3, c4, c5, c6, c7].getD k 0 := by
    intro k hk
    rw [← hc]
    simp only [List.getD_eq_getElem?_getD]
    rw [List.getElem?_take_of_lt hk, List.getElem?_drop, Nat.mul_comm]
  rw [hc]
  show 0 ||| (b.getD (i * 8 + 0) 0).setWidth 64 <<< (8 * 0) ||| (b.getD (i * 8 + 1) 0).setWidth 64 <<< (8 * 1) |||
    (b.getD (i * 8 + 2) 0).setWidth 64 <<< (8 * 2) ||| (b.getD (i * 8 + 3) 0).setWidth 64 <<< (8 * 3) |||
    (b.getD (i * 8 + 4) 0).setWidth 64 <<< (8 * 4) ||| (b.getD (i * 8 + 5) 0).setWidth 64 <<< (8 * 5) |||
    (b.getD (i * 8 + 6) 0).setWidth 64 <<< (8 * 6) ||| (b.getD (i * 8 + 7) 0).setWidth 64 <<< (8 * 7) = _
  rw [key 0 (by decide), key 1 (by decide), key 2 (by decide), key 3 (by decide), key 4 (by decide), key 5 (by decide),
    key 6 (by decide), key 7 (by decide)]
  show _ = BitVec.ofNat 64 ([c7, c6, c5, c4, c3, c2, c1, c0].foldl (fun v x => 256 * v + x.toNat) 0)
  rw [foldl_bytes8, ← orBytes8]; rfl

theorem sha3ToBytes_eq (A : State) : sha3ToBytes (keccakL A) = bytes A := by
  unfold sha3ToBytes keccakL bytes
  rw [List.flatMap_map]
  congr 1; funext i
  unfold le
  refine List.map_congr_left fun j _ => ?_
  apply BitVec.eq_of_toNat_eq
  rw [BitVec.toNat_setWidth, BitVec.toNat_and, BitVec.toNat_ushiftRight, Nat.shiftRight_eq_div_pow,
    show (0xFF#64).toNat = 2 ^ 8 - 1 from rfl, Nat.and_two_pow_sub_one_eq_mod, Nat.mod_mod, BitVec.toNat_ofNat,
    show (256:Nat) = 2 ^ 8 from rfl, ← Nat.pow_mul]

theorem sha3Permutation_eq {b : List Byte} (hb : b.length = 200) : sha3Permutation b = Keccak.f b := by
  unfold sha3Permutation Keccak.f
  rw [sha3ToWords_eq hb, sha3PermutationOnWords_eq, sha3ToBytes_eq]

theorem keccak_bytes_length (A : State) : (bytes A).length = 200 := by
  unfold bytes
  rw [List.length_flatMap]
  simp only [le, List.length_map, List.length_range]
  decide

theorem keccak_f_length (b : List Byte) : (Keccak.f b).length = 200 := keccak_bytes_length _

/-! ### Absorbing -/

theorem byte_xorz (x : Byte) : x ^^^ 0 = x := BitVec.xor_zero

theorem xorInto (m : List Byte) (s : List Byte) (n : Nat) (hn : n ≤ m.length) (hs : m.length ≤ s.length) :
    (List.range n).foldl (fun s i => s.set i (s.getD i 0 ^^^ m.getD i 0)) s =
      List.zipWith (· ^^^ ·) (s.take n) (m.take n) ++ s.drop n := by
  induction n with
  | zero => simp
  | succ n ih =>
    rw [List.range_succ, List.foldl_append, ih (by omega)]
    show List.set _ n _ = _
    have hl : (List.zipWith (· ^^^ ·) (s.take n) (m.take n)).length = n := by simp; omega
    have hg : (List.zipWith (· ^^^ ·) (s.take n) (m.take n) ++ s.drop n).getD n 0 = s[n] := by
      rw [List.getD_eq_getElem?_getD, List.getElem?_append_right (by omega), hl, Nat.sub_self,
        List.getElem?_drop, Nat.add_zero, List.getElem?_eq_getElem (by omega)]; rfl
    have hm : m.getD n 0 = m[n] := by
      rw [List.getD_eq_getElem?_getD, List.getElem?_eq_getElem (by omega)]; rfl
    rw [hg, hm, List.set_append_right _ _ (by omega), hl, Nat.sub_self, List.drop_eq_getElem_cons (by omega : n < s.length)]
    rw [List.set_cons_zero, List.take_add_one, List.take_add_one, List.getElem?_eq_getElem (by omega : n < s.length),
      List.getElem?_eq_getElem (by omega : n < m.length)]
    simp only [Option.toList]
    rw [List.zipWith_append (by simp; omega), List.append_assoc]
    rfl

theorem sha3PermutationAfterXor_eq {m s : List Byte} (hm : m.length ≤ 200) (hs : s.length = 200) :
    sha3PermutationAfterXor m s = absorb s m := by
  unfold sha3PermutationAfterXor absorb
  rw [xorInto m s m.length (Nat.le_refl _) (by omega)]
  have : List.zipWith (· ^^^ ·) (s.take m.length) (m.take m.length) ++ s.drop m.length =
      List.zipWith (· ^^^ ·) s (m ++ List.replicate (200 - m.length) 0) := by
    rw [List.take_length]
    conv => rhs; rw [← List.take_append_drop m.length s]
    rw [List.zipWith_append (by simp; omega)]
    congr 1
    have hl : (s.drop m.length).length = 200 - m.length := by simp; omega
    rw [← hl]
    generalize s.drop m.length = t
    induction t with
    | nil => rfl
    | cons x t ih => rw [List.length_cons, List.replicate_succ, List.zipWith_cons_cons, ← ih, byte_xorz]
  rw [this, sha3Permutation_eq (by simp; omega)]

end Wizard

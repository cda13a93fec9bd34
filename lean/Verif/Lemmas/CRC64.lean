import Verif.Model.CRC64
import Verif.Spec.CRC
import Verif.Lemmas.Mem
import Verif.Lemmas.Hash
/-! CRC-64: the table method is polynomial division, and bursts change the remainder. -/
namespace Wizard
open Spec.CRC Spec.Hash

/-- One bit of the reflected register. -/
def crcT (x : BitVec 64) : BitVec 64 := if x.getLsbD 0 then (x >>> 1) ^^^ 0xd800000000000000#64 else x >>> 1

def crcTn : Nat → BitVec 64 → BitVec 64
  | 0, x => x
  | n + 1, x => crcTn n (crcT x)

theorem crcT_xor (x y : BitVec 64) : crcT (x ^^^ y) = crcT x ^^^ crcT y := by
  unfold crcT
  rw [BitVec.getLsbD_xor, BitVec.ushiftRight_xor_distrib]
  cases x.getLsbD 0 <;> cases y.getLsbD 0 <;> simp only [Bool.xor_self, Bool.xor_false, Bool.xor_true,
    Bool.not_false, if_true, if_false, Bool.false_eq_true]
  · rw [BitVec.xor_assoc]
  · rw [BitVec.xor_assoc, BitVec.xor_assoc, BitVec.xor_comm (y >>> 1)]
  · generalize x >>> 1 = a
    generalize y >>> 1 = b
    generalize 0xd800000000000000#64 = c
    rw [BitVec.xor_comm b c, BitVec.xor_assoc, ← BitVec.xor_assoc c c b, BitVec.xor_self, BitVec.zero_xor]

theorem crcTn_xor (n : Nat) (x y : BitVec 64) : crcTn n (x ^^^ y) = crcTn n x ^^^ crcTn n y := by
  induction n generalizing x y with
  | zero => rfl
  | succ n ih => rw [crcTn, crcT_xor, ih]; rfl

theorem crcT_zero {x : BitVec 64} (h : crcT x = 0#64) : x = 0#64 := by
  have key : ∀ i < 64, (crcT x).getLsbD i = false := by intro i _; rw [h]; exact BitVec.getLsbD_zero
  unfold crcT at key
  have h63 := key 63 (by decide)
  have hbit0 : x.getLsbD 0 = false := by
    cases hb : x.getLsbD 0 with
    | false => rfl
    | true =>
      rw [hb] at h63
      simp only [if_true, BitVec.getLsbD_xor, BitVec.getLsbD_ushiftRight] at h63
      rw [BitVec.getLsbD_of_ge x (1 + 63) (by decide)] at h63
      exact absurd h63 (by decide)
  rw [hbit0] at key
  simp only [Bool.false_eq_true, if_false, BitVec.getLsbD_ushiftRight] at key
  apply BitVec.eq_of_getLsbD_eq
  intro i hi
  rw [BitVec.getLsbD_zero]
  match i with
  | 0 => exact hbit0
  | i + 1 => rw [Nat.add_comm]; exact key i (by omega)

theorem crcTn_zero {n : Nat} {x : BitVec 64} (h : crcTn n x = 0#64) : x = 0#64 := by
  induction n generalizing x with
  | zero => exact h
  | succ n ih => exact crcT_zero (ih h)

theorem crcT_shl {y : BitVec 64} (h : y.getLsbD 63 = false) : crcT (y <<< 1) = y := by
  unfold crcT
  rw [if_neg (by simp)]
  apply BitVec.eq_of_getLsbD_eq
  intro i hi
  rw [BitVec.getLsbD_ushiftRight, BitVec.getLsbD_shiftLeft]
  by_cases h63 : i = 63
  · subst h63; rw [h]; decide
  · rw [decide_eq_true (by omega : 1 + i < 64), decide_eq_false (by omega : ¬ 1 + i < 1), show 1 + i - 1 = i by omega]; rfl

/-! ### Bit by bit -/

/-- A bit as a register. -/
def crcBit (b : Bool) : BitVec 64 := if b then 1#64 else 0#64

/-- Bits packed low bit first. -/
def crcPack : List Bool → BitVec 64
  | [] => 0#64
  | b :: bs => crcBit b ^^^ (crcPack bs <<< 1)

theorem crcBit_get (b : Bool) (i : Nat) : (crcBit b).getLsbD i = (decide (i = 0) && b) := by
  cases b
  · simp [crcBit]
  · simp [crcBit, BitVec.getLsbD_one]

theorem crcPack_get (bs : List Bool) (i : Nat) (hi : i < 64) : (crcPack bs).getLsbD i = bs.getD i false := by
  induction bs generalizing i with
  | nil => simp [crcPack]
  | cons b bs ih =>
    rw [crcPack, BitVec.getLsbD_xor, crcBit_get, BitVec.getLsbD_shiftLeft]
    match i with
    | 0 => simp
    | i + 1 =>
      rw [decide_eq_false (by omega : ¬ i + 1 = 0), decide_eq_true hi, decide_eq_false (by omega : ¬ i + 1 < 1),
        Nat.add_sub_cancel, ih i (by omega)]
      simp

/-- The register after up to 64 bits. -/
theorem crcFold (bs : List Bool) (h : bs.length ≤ 64) (r : BitVec 64) :
    bs.foldl (fun r b => crcT (r ^^^ crcBit b)) r = crcTn bs.length (r ^^^ crcPack bs) := by
  induction bs generalizing r with
  | nil => show r = r ^^^ 0#64; rw [BitVec.xor_zero]
  | cons b bs ih =>
    rw [List.length_cons] at h
    rw [List.foldl_cons, ih (by omega), List.length_cons, crcTn, crcPack, ← BitVec.xor_assoc, crcT_xor (r ^^^ crcBit b),
      crcT_shl]
    rw [crcPack_get _ _ (by decide), List.getD_eq_getElem?_getD, List.getElem?_eq_none (by omega)]; rfl

theorem crcPack_byte : ∀ p : Byte, crcPack ((List.range 8).map fun i => p.getLsbD i) = p.setWidth 64 := by
  decide +kernel

/-- The reflected register is the reversed remainder. -/
theorem crcStep_reverse (r : BitVec 64) (b : Bool) : (step r b).reverse = crcT (r.reverse ^^^ crcBit b) := by
  have h0 : (r.reverse ^^^ crcBit b).getLsbD 0 = (r.msb != b) := by
    rw [BitVec.getLsbD_xor, crcBit_get, BitVec.getLsbD_reverse, ← BitVec.msb_eq_getMsbD_zero]; simp
  have hs : (r <<< 1).reverse = (r.reverse ^^^ crcBit b) >>> 1 := by
    apply BitVec.eq_of_getLsbD_eq
    intro i hi
    rw [BitVec.getLsbD_reverse, BitVec.getLsbD_ushiftRight, BitVec.getLsbD_xor, crcBit_get, BitVec.getLsbD_reverse,
      BitVec.getMsbD_shiftLeft, decide_eq_false (by omega : ¬ 1 + i = 0), Nat.add_comm i 1]
    simp
  have hx : ∀ x y : BitVec 64, (x ^^^ y).reverse = x.reverse ^^^ y.reverse := by
    intro x y
    apply BitVec.eq_of_getLsbD_eq
    intro i hi
    simp only [BitVec.getLsbD_reverse, BitVec.getLsbD_xor, BitVec.getMsbD_xor]
  unfold step crcT
  rw [h0, hx, hs]
  cases (r.msb != b)
  · rw [if_neg (by decide), if_neg (by decide), show (0#64).reverse = 0#64 by decide +kernel, BitVec.xor_zero]
  · rw [if_pos rfl, if_pos rfl, show (0x1b#64).reverse = 0xd800000000000000#64 by decide +kernel]

theorem crcFold_reverse (bs : List Bool) (r : BitVec 64) :
    (bs.foldl step r).reverse = bs.foldl (fun r b => crcT (r ^^^ crcBit b)) r.reverse := by
  induction bs generalizing r with
  | nil => rfl
  | cons b bs ih => rw [List.foldl_cons, ih, crcStep_reverse]; rfl

/-! ### The table -/

theorem crc64Entry_eq (x : BitVec 64) : crc64Entry x = crcTn 8 x := by
  have h : ∀ x : BitVec 64, (if x &&& 0x01#64 != 0#64 then (x >>> 1) ^^^ 0xd800000000000000#64 else x >>> 1) = crcT x := by
    intro x
    unfold crcT
    have : (x &&& 0x01#64 != 0#64) = x.getLsbD 0 := by
      have e : x &&& 1#64 = crcBit (x.getLsbD 0) := by
        apply BitVec.eq_of_getLsbD_eq
        intro i hi
        rw [BitVec.getLsbD_and, crcBit_get, BitVec.getLsbD_one]
        by_cases h : i = 0
        · subst h; simp
        · simp [h]
      rw [e]
      cases x.getLsbD 0 <;> rfl
    rw [this]
  unfold crc64Entry
  simp only [h]
  rfl

/-- The register when all the bits of a byte have been done at once. -/
theorem crcByte (x : BitVec 64) : (x >>> 8) ^^^ crcTn 8 (x &&& 0xff#64) = crcTn 8 x := by
  have hsplit : x = ((x >>> 8) <<< 8) ^^^ (x &&& 0xff#64) := by
    apply BitVec.eq_of_getLsbD_eq
    intro i hi
    rw [BitVec.getLsbD_xor, BitVec.getLsbD_shiftLeft, BitVec.getLsbD_ushiftRight, BitVec.getLsbD_and,
      show (0xff#64) = BitVec.ofNat 64 (2 ^ 8 - 1) from rfl, BitVec.getLsbD_ofNat, Nat.testBit_two_pow_sub_one]
    by_cases h : i < 8
    · simp [h, hi]
    · simp [h, hi, show 8 + (i - 8) = i by omega]
  have hz : ∀ k, 56 ≤ k → (x >>> 8).getLsbD k = false := by
    intro k hk
    rw [BitVec.getLsbD_ushiftRight, BitVec.getLsbD_of_ge _ _ (by omega)]
  have hT : crcTn 8 ((x >>> 8) <<< 8) = x >>> 8 := by
    generalize x >>> 8 = y at hz
    have hstep : ∀ k, k < 8 → crcT (y <<< (k + 1)) = y <<< k := by
      intro k hk
      rw [BitVec.shiftLeft_add, crcT_shl]
      rw [BitVec.getLsbD_shiftLeft, hz _ (by omega)]; simp
    simp only [crcTn, hstep _ (show 7 < 8 by decide), hstep _ (show 6 < 8 by decide), hstep _ (show 5 < 8 by decide),
      hstep _ (show 4 < 8 by decide), hstep _ (show 3 < 8 by decide), hstep _ (show 2 < 8 by decide),
      hstep _ (show 1 < 8 by decide), hstep _ (show 0 < 8 by decide)]
    exact BitVec.shiftLeft_zero _
  conv => rhs; rw [hsplit]
  rw [crcTn_xor, hT]

/-- The table of `InitializeCRC64`. -/
def crc64Table : List (BitVec 64) := (List.range 256).map fun i => crc64Entry (BitVec.ofNat 64 i)

theorem crc64Turn_eq (crc : BitVec 64) (p : Byte) :
    crc64Turn crc64Table crc p = .ok (((List.range 8).map fun i => p.getLsbD i).foldl (fun r b => crcT (r ^^^ crcBit b)) crc) := by
  have hlt : ((crc ^^^ p.setWidth 64) &&& 0xff#64).toNat < 256 := by
    rw [BitVec.toNat_and, show (0xff#64).toNat = 2 ^ 8 - 1 from rfl, Nat.and_two_pow_sub_one_eq_mod]
    exact Nat.mod_lt _ (by decide)
  unfold crc64Turn crc64Table
  rw [List.getElem?_map, List.getElem?_range hlt]
  show Res.ok _ = _
  congr 1
  show crc >>> 8 ^^^ crc64Entry (BitVec.ofNat 64 _) = _
  rw [crc64Entry_eq, BitVec.ofNat_toNat, BitVec.setWidth_eq, crcFold _ (by simp), crcPack_byte]
  rw [show ((List.range 8).map fun i => p.getLsbD i).length = 8 by simp, ← crcByte (crc ^^^ p.setWidth 64)]
  congr 1
  apply BitVec.eq_of_getLsbD_eq
  intro i hi
  rw [BitVec.getLsbD_ushiftRight, BitVec.getLsbD_ushiftRight, BitVec.getLsbD_xor, BitVec.getLsbD_setWidth,
    BitVec.getLsbD_of_ge p _ (by omega)]
  simp

theorem crcBits_append (a b : List Byte) : bits (a ++ b) = bits a ++ bits b := by
  unfold bits; rw [List.flatMap_append]

theorem crc64Loop_eq (datum : List Byte) (n : Nat) : ∀ (p : Nat) (m : List Byte), p + n ≤ datum.length →
    crc64Loop crc64Table datum n p (remainder m).reverse = .ok (remainder (m ++ (datum.drop p).take n)).reverse := by
  induction n with
  | zero => intro p m _; rw [List.take_zero, List.append_nil]; rfl
  | succ n ih =>
    intro p m h
    have hd : datum.drop p = datum[p] :: datum.drop (p + 1) := List.drop_eq_getElem_cons (by omega)
    have hrd : rd datum p = .ok datum[p] := by unfold rd; rw [List.getElem?_eq_getElem (by omega)]
    have hr : (remainder (m ++ [datum[p]])).reverse =
        ((List.range 8).map fun i => datum[p].getLsbD i).foldl (fun r b => crcT (r ^^^ crcBit b)) (remainder m).reverse := by
      unfold remainder
      rw [crcBits_append, List.foldl_append, crcFold_reverse]
      congr 1
    rw [crc64Loop, hrd, Res.ok_bind, crc64Turn_eq, Res.ok_bind, ← hr, ih _ _ (by omega), hd, List.take_succ_cons,
      List.append_assoc]
    rfl

/-- The state after the bytes `m` have been fed. -/
structure Crc64Holds (s : Crc64Info) (m : List Byte) : Prop where
  table : s.crcXor = crc64Table
  crc : s.crc = (remainder m).reverse
  digest : s.digest.length = 8 + maxCipherBlocksize

theorem updateCrc64_holds {s : Crc64Info} {m : List Byte} (h : Crc64Holds s m) {d : StringInfo} (hd : d.WF) :
    ∃ r, updateCrc64 s d = .ok r ∧ Crc64Holds r (m ++ d.bytes) := by
  have hdl : d.length + maxCipherBlocksize ≤ d.datum.length := hd
  unfold updateCrc64
  rw [h.table, h.crc, crc64Loop_eq _ _ _ _ (by omega), Res.ok_bind]
  exact ⟨_, rfl, rfl, rfl, h.digest⟩

theorem initializeCrc64_holds {s : Crc64Info} (h : s.digest.length = 8 + maxCipherBlocksize) :
    Crc64Holds (initializeCrc64 s) [] := by
  refine ⟨rfl, ?_, h⟩
  show (0#64) = (0#64).reverse
  decide +kernel

theorem finalizeCrc64_holds {s : Crc64Info} {m : List Byte} (h : Crc64Holds s m) :
    ∃ r, finalizeCrc64 s = .ok r ∧ r.digest.take 8 = crc64 m ∧ Crc64Holds r m := by
  have hdl := h.digest
  unfold finalizeCrc64
  rw [wrN_ok (by simp; omega), Res.ok_bind]
  refine ⟨_, rfl, ?_, h.table, h.crc, ?_⟩
  · refine Eq.trans (List.take_left' (by simp)) ?_
    unfold crc64
    rw [← h.crc]
    have hb : ∀ k, (s.crc >>> (8 * k)).setWidth 8 = BitVec.ofNat 8 (s.crc.toNat / 256 ^ k) := by
      intro k
      apply BitVec.eq_of_toNat_eq
      rw [BitVec.toNat_setWidth, BitVec.toNat_ushiftRight, BitVec.toNat_ofNat, Nat.shiftRight_eq_div_pow,
        show (256:Nat) = 2 ^ 8 from rfl, ← Nat.pow_mul]
    show [(s.crc >>> (8 * 7)).setWidth 8, (s.crc >>> (8 * 6)).setWidth 8, (s.crc >>> (8 * 5)).setWidth 8,
      (s.crc >>> (8 * 4)).setWidth 8, (s.crc >>> (8 * 3)).setWidth 8, (s.crc >>> (8 * 2)).setWidth 8,
      (s.crc >>> (8 * 1)).setWidth 8, (s.crc >>> (8 * 0)).setWidth 8] = _
    rw [hb, hb, hb, hb, hb, hb, hb, hb]
    rfl
  · simp; omega

/-! ### Bursts -/

theorem crcFold_linear (a : List Bool) : ∀ (b : List Bool) (r r' : BitVec 64), a.length = b.length →
    a.foldl (fun r b => crcT (r ^^^ crcBit b)) r ^^^ b.foldl (fun r b => crcT (r ^^^ crcBit b)) r' =
      (List.zipWith xor a b).foldl (fun r b => crcT (r ^^^ crcBit b)) (r ^^^ r') := by
  induction a with
  | nil =>
    intro b r r' h
    rw [List.eq_nil_of_length_eq_zero h.symm]; rfl
  | cons x a ih =>
    intro b r r' h
    match b, h with
    | y :: b, h =>
      rw [List.foldl_cons, List.foldl_cons, ih b _ _ (by simpa using h), List.zipWith_cons_cons, List.foldl_cons,
        ← crcT_xor]
      congr 2
      have : crcBit (xor x y) = crcBit x ^^^ crcBit y := by cases x <;> cases y <;> decide
      rw [this, BitVec.xor_assoc, BitVec.xor_assoc, ← BitVec.xor_assoc (crcBit x), BitVec.xor_comm (crcBit x) r',
        BitVec.xor_assoc r']

theorem crcFold_zeros (n : Nat) (r : BitVec 64) :
    (List.replicate n false).foldl (fun r b => crcT (r ^^^ crcBit b)) r = crcTn n r := by
  induction n generalizing r with
  | zero => rfl
  | succ n ih =>
    rw [List.replicate_succ, List.foldl_cons, ih, crcTn, show crcBit false = 0#64 from rfl, BitVec.xor_zero]

theorem crcTn_0 (n : Nat) : crcTn n 0#64 = 0#64 := by
  induction n with
  | zero => rfl
  | succ n ih => rw [crcTn, show crcT 0#64 = 0#64 by decide +kernel, ih]

theorem all_false_replicate {l : List Bool} (h : ∀ i : Nat, l.getD i false = false) : l = List.replicate l.length false := by
  apply List.eq_replicate_iff.mpr
  refine ⟨rfl, fun b hb => ?_⟩
  obtain ⟨i, hi, rfl⟩ := List.getElem_of_mem hb
  have := h i
  rw [List.getD_eq_getElem?_getD, List.getElem?_eq_getElem hi] at this
  exact this

/-- A difference within 64 consecutive bits leaves a remainder. -/
theorem crc_burst (d : List Bool) (k : Nat) (hw : ∀ i, d.getD i false = true → k ≤ i ∧ i < k + 64)
    (h : d.foldl (fun r b => crcT (r ^^^ crcBit b)) 0#64 = 0#64) : ∀ i, d.getD i false = false := by
  have gd : ∀ (l : List Bool) i, l.getD i false = (l[i]?).getD false := fun l i => List.getD_eq_getElem?_getD
  have hout : ∀ i, (i < k ∨ k + 64 ≤ i) → d.getD i false = false := by
    intro i hi
    cases hb : d.getD i false with
    | false => rfl
    | true => have := hw i hb; omega
  have e1 : d.take k = List.replicate (d.take k).length false := by
    apply all_false_replicate
    intro i
    rw [gd]
    by_cases hi : i < k
    · rw [List.getElem?_take_of_lt hi, ← gd]; exact hout i (Or.inl hi)
    · rw [List.getElem?_eq_none (by simp; omega)]; rfl
  have e3 : d.drop (k + 64) = List.replicate (d.drop (k + 64)).length false := by
    apply all_false_replicate
    intro i
    rw [gd, List.getElem?_drop, ← gd]; exact hout _ (Or.inr (by omega))
  have hd : d = d.take k ++ ((d.drop k).take 64 ++ d.drop (k + 64)) := by
    rw [← List.drop_drop, List.take_append_drop, List.take_append_drop]
  rw [hd, List.foldl_append, List.foldl_append, e1, e3, crcFold_zeros, crcFold_zeros, crcTn_0,
    crcFold _ (by simp; omega), BitVec.zero_xor] at h
  have hp := crcTn_zero (crcTn_zero h)
  intro i
  by_cases hi : k ≤ i ∧ i < k + 64
  · have := crcPack_get ((d.drop k).take 64) (i - k) (by omega)
    rw [hp, BitVec.getLsbD_zero, gd, List.getElem?_take_of_lt (by omega), List.getElem?_drop, ← gd,
      show k + (i - k) = i by omega] at this
    exact this.symm
  · exact hout i (by omega)

theorem crcBits_length (m : List Byte) : (bits m).length = 8 * m.length := by
  unfold bits
  induction m with
  | nil => rfl
  | cons b m ih => rw [List.flatMap_cons, List.length_append, ih]; simp; omega

theorem crcBits_inj {a b : List Byte} (hl : a.length = b.length) (h : bits a = bits b) : a = b := by
  induction a generalizing b with
  | nil => exact (List.eq_nil_of_length_eq_zero hl.symm).symm
  | cons x a ih =>
    match b, hl with
    | y :: b, hl =>
      have e : ∀ (z : Byte) (l : List Byte), bits (z :: l) = ((List.range 8).map fun i => z.getLsbD i) ++ bits l := fun _ _ => rfl
      rw [e, e] at h
      obtain ⟨h1, h2⟩ := List.append_inj h (by simp)
      rw [ih (by simpa using hl) h2]
      congr 1
      have := congrArg crcPack h1
      rw [crcPack_byte, crcPack_byte] at this
      have h3 := congrArg (BitVec.setWidth 8) this
      simpa using h3

theorem be_inj {k a b : Nat} (ha : a < 256 ^ k) (hb : b < 256 ^ k) (h : be k a = be k b) : a = b := by
  induction k generalizing a b with
  | zero => simp at ha hb; omega
  | succ k ih =>
    have hp : 0 < 256 ^ k := Nat.pow_pos (by decide)
    have e : ∀ v, v < 256 ^ (k + 1) → be (k + 1) v = be 1 (v / 256 ^ k) ++ be k (v % 256 ^ k) := by
      intro v hv
      have := be_add 1 k (v / 256 ^ k) (v % 256 ^ k) (Nat.mod_lt _ hp)
      rw [← this, Nat.add_comm 1 k]
      congr 1
      rw [Nat.mul_comm]; exact (Nat.div_add_mod _ _).symm
    rw [e a ha, e b hb] at h
    obtain ⟨h1, h2⟩ := List.append_inj h (by simp [be])
    have h2 := ih (Nat.mod_lt _ hp) (Nat.mod_lt _ hp) h2
    have h1 : a / 256 ^ k = b / 256 ^ k := by
      have : BitVec.ofNat 8 (a / 256 ^ k / 256 ^ (1 - 1 - 0)) = BitVec.ofNat 8 (b / 256 ^ k / 256 ^ (1 - 1 - 0)) := by
        injection h1
      have h := congrArg BitVec.toNat this
      rw [BitVec.toNat_ofNat, BitVec.toNat_ofNat] at h
      simp only [Nat.sub_self, Nat.pow_zero, Nat.div_one] at h
      rw [Nat.pow_succ] at ha hb
      rw [Nat.mod_eq_of_lt (by show _ < 256; rw [Nat.div_lt_iff_lt_mul hp, Nat.mul_comm]; exact ha),
        Nat.mod_eq_of_lt (by show _ < 256; rw [Nat.div_lt_iff_lt_mul hp, Nat.mul_comm]; exact hb)] at h
      exact h
    rw [← Nat.div_add_mod a (256 ^ k), ← Nat.div_add_mod b (256 ^ k), h1, h2]

/-- Different messages whose difference is a burst of at most 64 bits have different checksums. -/
theorem crc64_burst {a b : List Byte} (h : Burst 64 a b) (hne : a ≠ b) : crc64 a ≠ crc64 b := by
  obtain ⟨hl, k, hk⟩ := h
  intro hc
  apply hne
  have hr := be_inj (BitVec.isLt _) (BitVec.isLt _) hc
  have hr := BitVec.eq_of_toNat_eq hr
  unfold remainder at hr
  rw [crcFold_reverse, crcFold_reverse] at hr
  have hbl : (bits a).length = (bits b).length := by rw [crcBits_length, crcBits_length, hl]
  have hlin := crcFold_linear (bits a) (bits b) (0 : BitVec 64).reverse (0 : BitVec 64).reverse hbl
  rw [hr, BitVec.xor_self, BitVec.xor_self] at hlin
  have hz : ∀ i, (List.zipWith xor (bits a) (bits b)).getD i false =
      (match (bits a)[i]?, (bits b)[i]? with | some x, some y => xor x y | _, _ => false) := by
    intro i
    rw [List.getD_eq_getElem?_getD, List.getElem?_zipWith]
    cases (bits a)[i]? <;> cases (bits b)[i]? <;> rfl
  have hall := crc_burst (List.zipWith xor (bits a) (bits b)) k (by
    intro i hi
    apply hk
    intro he
    rw [hz, he] at hi
    cases hb : (bits b)[i]? with
    | none => rw [hb] at hi; exact absurd hi (by decide)
    | some y => rw [hb] at hi; simp at hi) hlin.symm
  apply crcBits_inj hl
  apply List.ext_getElem?
  intro i
  have := hall i
  rw [hz] at this
  by_cases hi : i < (bits a).length
  · rw [List.getElem?_eq_getElem hi, List.getElem?_eq_getElem (by omega)] at this ⊢
    simpa using this
  · rw [List.getElem?_eq_none (by omega), List.getElem?_eq_none (by omega)]

end Wizard

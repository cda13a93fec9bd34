import Verif.Model.Sha
import Verif.Spec.Hash
import Verif.Lemmas.Mem
/-! Facts about block-wise iteration, and the buffering invariant of the SHA functions. -/
namespace Wizard
open Spec.Hash

theorem blocks_length {n : Nat} {m b : List Byte} (h : b ∈ blocks n m) : b.length = n := by
  unfold blocks at h
  obtain ⟨i, hi, rfl⟩ := List.mem_map.mp h
  have hi : i < m.length / n := List.mem_range.mp hi
  have : n * (i + 1) ≤ m.length := Nat.le_trans (Nat.mul_le_mul_left n hi) (Nat.mul_div_le _ _)
  rw [Nat.mul_add] at this
  simp; omega

theorem blocks_short {n : Nat} {m : List Byte} (h : m.length < n) : blocks n m = [] := by
  unfold blocks; rw [Nat.div_eq_of_lt h]; rfl

theorem blocks_append {n : Nat} (hn : 0 < n) {a b : List Byte} (h : n ∣ a.length) :
    blocks n (a ++ b) = blocks n a ++ blocks n b := by
  obtain ⟨k, hk⟩ := h
  unfold blocks
  have e1 : (a ++ b).length / n = k + b.length / n := by
    rw [List.length_append, hk, Nat.mul_add_div hn]
  have e2 : a.length / n = k := by rw [hk, Nat.mul_div_cancel_left _ hn]
  rw [e1, e2, List.range_add, List.map_append, List.map_map]
  congr 1
  · refine List.map_congr_left fun i hi => ?_
    have hi : i < k := List.mem_range.mp hi
    have : n * (i + 1) ≤ a.length := by rw [hk]; exact Nat.mul_le_mul_left n hi
    rw [Nat.mul_add] at this
    rw [List.drop_append_of_le_length (by omega), List.take_append_of_le_length (by simp; omega)]
  · refine List.map_congr_left fun i _ => ?_
    show List.take n (List.drop (n * (k + i)) (a ++ b)) = _
    rw [Nat.mul_add, ← hk, ← List.drop_drop, List.drop_left]

theorem blocks_one {n : Nat} (hn : 0 < n) {b : List Byte} (h : b.length = n) : blocks n b = [b] := by
  unfold blocks; rw [h, Nat.div_self hn]
  subst h; simp [List.range_succ]

section md
variable {σ τ : Type} {n : Nat} {f : σ → List Byte → σ} {s : σ} {a b : List Byte}

theorem md_append (hn : 0 < n) (h : n ∣ a.length) : md n f s (a ++ b) = md n f (md n f s a) b := by
  unfold md; rw [blocks_append hn h, List.foldl_append]

theorem md_short (h : a.length < n) : md n f s a = s := by
  unfold md; rw [blocks_short h]; rfl

theorem md_one (hn : 0 < n) (h : a.length = n) : md n f s a = f s a := by
  unfold md; rw [blocks_one hn h]; rfl

theorem md_map {f1 : σ → List Byte → σ} {f2 : τ → List Byte → τ} (g : τ → σ)
    (h : ∀ s b, b.length = n → f1 (g s) b = g (f2 s b)) (s : τ) (m : List Byte) :
    md n f1 (g s) m = g (md n f2 s m) := by
  unfold md
  have := @blocks_length n m
  generalize blocks n m = l at *
  induction l generalizing s with
  | nil => rfl
  | cons b l ih =>
    rw [List.foldl_cons, List.foldl_cons, h s b (this (List.mem_cons_self ..))]
    exact ih _ fun hb => this (List.mem_cons_of_mem _ hb)

theorem md_inv (P : σ → Prop) (hf : ∀ s b, P s → P (f s b)) (hs : P s) (m : List Byte) : P (md n f s m) := by
  unfold md
  generalize blocks n m = l
  induction l generalizing s with
  | nil => exact hs
  | cons b l ih => exact ih (hf _ _ hs)
end md

/-! ### The bit count -/

theorem count_step {w : Nat} (hw : 3 ≤ w) (low high hi : BitVec w) (n L : Nat)
    (hhi : hi.toNat = n / 2 ^ (w - 3) % 2 ^ w)
    (h : high.toNat * 2 ^ w + low.toNat = 8 * L % 2 ^ (2 * w)) :
    ((if low + BitVec.ofNat w (n <<< 3) < low then high + 1 else high) + hi).toNat * 2 ^ w
      + (low + BitVec.ofNat w (n <<< 3)).toNat = 8 * (L + n) % 2 ^ (2 * w) := by
  have e8 : (2:Nat) ^ w = 8 * 2 ^ (w - 3) := by
    rw [show (8:Nat) = 2 ^ 3 from rfl, ← Nat.pow_add]; congr 1; omega
  have eM : (2:Nat) ^ (2 * w) = 2 ^ w * 2 ^ w := by rw [Nat.two_mul, Nat.pow_add]
  have hn8 : n <<< 3 = 8 * n := by rw [Nat.shiftLeft_eq]; omega
  have hdiv : n / 2 ^ (w - 3) = 8 * n / 2 ^ w := by
    rw [e8, Nat.mul_div_mul_left _ _ (by decide)]
  rw [hdiv] at hhi
  have hl := low.isLt; have hh := high.isLt
  have hlow : (low + BitVec.ofNat w (n <<< 3)).toNat = (low.toNat + 8 * n % 2 ^ w) % 2 ^ w := by
    rw [BitVec.toNat_add, BitVec.toNat_ofNat, hn8]
  have hr : 8 * n % 2 ^ w < 2 ^ w := Nat.mod_lt _ (Nat.two_pow_pos w)
  have hq : 8 * n = 2 ^ w * (8 * n / 2 ^ w) + 8 * n % 2 ^ w := (Nat.div_add_mod _ _).symm
  have hW : 1 < 2 ^ w := Nat.one_lt_two_pow (by omega)
  have e1 : (1 : BitVec w).toNat = 1 := by
    show (BitVec.ofNat w 1).toNat = 1
    rw [BitVec.toNat_ofNat]; exact Nat.mod_eq_of_lt hW
  have key : ∃ c, (low.toNat + 8 * n % 2 ^ w) = 2 ^ w * c + (low + BitVec.ofNat w (n <<< 3)).toNat ∧
      ((if low + BitVec.ofNat w (n <<< 3) < low then high + 1 else high) + hi).toNat
        = (high.toNat + c + 8 * n / 2 ^ w) % 2 ^ w := by
    by_cases hc : low.toNat + 8 * n % 2 ^ w < 2 ^ w
    · refine ⟨0, ?_, ?_⟩
      · rw [hlow, Nat.mod_eq_of_lt hc]; omega
      · rw [if_neg (by rw [BitVec.lt_def, hlow, Nat.mod_eq_of_lt hc]; omega), BitVec.toNat_add, hhi,
          Nat.add_mod_mod]; rfl
    · have hm : (low.toNat + 8 * n % 2 ^ w) % 2 ^ w = low.toNat + 8 * n % 2 ^ w - 2 ^ w := by
        rw [Nat.mod_eq_sub_mod (by omega), Nat.mod_eq_of_lt (by omega)]
      refine ⟨1, ?_, ?_⟩
      · rw [hlow, hm]; omega
      · rw [if_pos (by rw [BitVec.lt_def, hlow, hm]; omega), BitVec.toNat_add, BitVec.toNat_add, hhi, e1,
          Nat.add_mod_mod, Nat.mod_add_mod]
  obtain ⟨c, hc1, hc2⟩ := key
  have hlt := (low + BitVec.ofNat w (n <<< 3)).isLt
  rw [hc2]
  generalize (low + BitVec.ofNat w (n <<< 3)).toNat = lo at hc1 hlt
  have e3 : (high.toNat + c + 8 * n / 2 ^ w) % 2 ^ w * 2 ^ w + lo =
      ((high.toNat + c + 8 * n / 2 ^ w) * 2 ^ w + lo) % 2 ^ (2 * w) := by
    rw [eM, Nat.mul_comm _ (2 ^ w), Nat.mul_comm (high.toNat + c + 8 * n / 2 ^ w) (2 ^ w), Nat.mod_mul,
      Nat.mul_add_mod, Nat.mod_eq_of_lt hlt, Nat.mul_add_div (Nat.two_pow_pos w), Nat.div_eq_of_lt hlt,
      Nat.add_zero]
    omega
  rw [e3]
  have e4 : (high.toNat + c + 8 * n / 2 ^ w) * 2 ^ w + lo = (high.toNat * 2 ^ w + low.toNat) + 8 * n := by
    rw [Nat.add_mul, Nat.add_mul, Nat.mul_comm c, Nat.mul_comm (8 * n / 2 ^ w)]; omega
  rw [e4, h, Nat.mod_add_mod]
  congr 1; omega

/-- The number of bytes in the buffer, from the bit count. -/
theorem count_offset {w k : Nat} (hk : k + 3 ≤ w) (low high : BitVec w) (L : Nat)
    (h : high.toNat * 2 ^ w + low.toNat = 8 * L % 2 ^ (2 * w)) :
    ((low >>> 3) &&& BitVec.ofNat w (2 ^ k - 1)).toNat = L % 2 ^ k := by
  have e1 : low.toNat = 8 * L % 2 ^ w := by
    have : (high.toNat * 2 ^ w + low.toNat) % 2 ^ w = low.toNat := by
      rw [Nat.mul_comm, Nat.mul_add_mod, Nat.mod_eq_of_lt low.isLt]
    rw [← this, h, Nat.two_mul, Nat.pow_add, Nat.mod_mul_left_mod]
  have hlt : 2 ^ k ≤ 2 ^ w := Nat.pow_le_pow_right (by decide) (by omega)
  have hp := Nat.two_pow_pos k
  rw [BitVec.toNat_and, BitVec.toNat_ofNat, Nat.mod_eq_of_lt (by omega), Nat.and_two_pow_sub_one_eq_mod,
    BitVec.toNat_ushiftRight, e1, Nat.shiftRight_eq_div_pow]
  have e8 : (2:Nat) ^ w = 2 ^ 3 * 2 ^ (w - 3) := by rw [← Nat.pow_add]; congr 1; omega
  rw [e8, Nat.mod_mul_right_div_self, show 8 * L / 2 ^ 3 = L from Nat.mul_div_cancel_left L (by decide)]
  exact Nat.mod_mod_of_dvd _ (Nat.pow_dvd_pow 2 (by omega))

/-! ### The invariant -/

variable {w : Nat}

/-- What the proof needs to know of an algorithm. -/
structure ShaAlg.OK (A : ShaAlg w) : Prop where
  block : ∃ k, A.block = 2 ^ k ∧ k + 3 ≤ w
  len : A.lenBytes = 2 * (w / 8)
  lt : A.lenBytes < A.block
  bytes : w = 8 * (w / 8)
  init : A.digestWords ≤ A.init.length
  transform : ∀ a b, A.digestWords ≤ (A.transform a b).length
  high : ∀ n, (A.highOf n).toNat = n % 2 ^ w / 2 ^ (w - 3)

/-- The state after the bytes `m` have been fed, when the length recorded is `L`. -/
structure ShaHoldsL (A : ShaAlg w) (s : ShaInfo w) (m : List Byte) (L : Nat) : Prop where
  split : ∃ a t, m = a ++ t ∧ A.block ∣ a.length ∧ t.length < A.block ∧ s.offset = t.length ∧
    s.message.take t.length = t ∧ s.accumulator = md A.block A.transform A.init a
  message : s.message.length = A.block + maxCipherBlocksize
  digest : s.digest.length = A.digestWords * (w / 8) + maxCipherBlocksize
  count : s.high.toNat * 2 ^ w + s.low.toNat = 8 * L % 2 ^ (2 * w)
  mod : L % A.block = m.length % A.block

/-- The state after the bytes `m` have been fed. -/
abbrev ShaHolds (A : ShaAlg w) (s : ShaInfo w) (m : List Byte) : Prop := ShaHoldsL A s m m.length

theorem ShaAlg.OK.pos {A : ShaAlg w} (h : A.OK) : 0 < A.block := by
  obtain ⟨k, hk, _⟩ := h.block
  rw [hk]; exact Nat.two_pow_pos k

theorem take_wrN_zero {m b : List Byte} : (m.take 0 ++ b ++ m.drop (0 + b.length)).take b.length = b := by
  rw [List.take_zero, List.nil_append, List.take_left']
  rfl

theorem shaBlocks_holds {A : ShaAlg w} (hA : A.OK) (datum : List Byte) (fuel : Nat) :
    ∀ (s : ShaInfo w) (p n : Nat) (a : List Byte), n < fuel → p + n ≤ datum.length → A.block ∣ a.length →
      s.message.length = A.block + maxCipherBlocksize →
      s.accumulator = md A.block A.transform A.init a →
      ∃ r, shaBlocks A datum fuel s p n = .ok r ∧ r.low = s.low ∧ r.high = s.high ∧ r.digest = s.digest ∧
        r.message.length = A.block + maxCipherBlocksize ∧
        ∃ a' t, a ++ (datum.drop p).take n = a' ++ t ∧ A.block ∣ a'.length ∧ t.length < A.block ∧
          r.offset = t.length ∧ r.message.take t.length = t ∧
          r.accumulator = md A.block A.transform A.init a' := by
  have hpos := hA.pos
  induction fuel with
  | zero => intro s p n a h; omega
  | succ fuel ih =>
    intro s p n a hf hp ha hm hacc
    unfold shaBlocks
    by_cases hn : n ≥ A.block
    · rw [if_pos hn, rdN_ok (by omega), Res.ok_bind]
      have hb : ((datum.drop p).take A.block).length = A.block := by simp; omega
      rw [wrN_ok (by omega), Res.ok_bind]
      generalize hbd : (datum.drop p).take A.block = b at hb
      have := ih (transformSha A { s with message := s.message.take 0 ++ b ++ s.message.drop (0 + b.length) })
        (p + A.block) (n - A.block) (a ++ b) (by omega) (by omega)
        (by rw [List.length_append, hb]; exact Nat.dvd_add ha (Nat.dvd_refl _))
        (by simp [transformSha]; omega)
        (by
          show A.transform s.accumulator (List.take A.block _) = _
          rw [md_append hpos ha, md_one hpos hb, hacc, ← hb, take_wrN_zero])
      obtain ⟨r, h1, h2, h3, h4, h5, a', t, h6, h7⟩ := this
      refine ⟨r, h1, h2, h3, h4, h5, a', t, ?_, h7⟩
      rw [← h6, List.append_assoc, ← hbd]
      congr 1
      rw [← List.drop_drop, show n = A.block + (n - A.block) by omega, List.take_add]
      congr 2; omega
    · rw [if_neg hn, rdN_ok (by omega), Res.ok_bind]
      have hb : ((datum.drop p).take n).length = n := by simp; omega
      rw [wrN_ok (by omega), Res.ok_bind]
      refine ⟨_, rfl, rfl, rfl, rfl, ?_, a, (datum.drop p).take n, rfl, ha, by omega, hb.symm, ?_, hacc⟩
      · simp; omega
      · exact take_wrN_zero

/-- However long the bytes: what is recorded is their number modulo 2^w. -/
theorem updateSha_holdsL {A : ShaAlg w} (hA : A.OK) {s : ShaInfo w} {m : List Byte} {L : Nat} (h : ShaHoldsL A s m L)
    {d : StringInfo} (hd : d.WF) :
    ∃ r, updateSha A s d = .ok r ∧ ShaHoldsL A r (m ++ d.bytes) (L + d.length % 2 ^ w) := by
  have hpos := hA.pos
  have hdl : d.length + maxCipherBlocksize ≤ d.datum.length := hd
  obtain ⟨a, t, hm, ha, ht, hoff, htake, hacc⟩ := h.split
  have hml := h.message
  have hw : 3 ≤ w := by obtain ⟨k, _, h⟩ := hA.block; omega
  have hcnt := count_step hw s.low s.high (A.highOf d.length) (d.length % 2 ^ w) L
    (by
      rw [hA.high]
      refine (Nat.mod_eq_of_lt ?_).symm
      exact Nat.lt_of_le_of_lt (Nat.div_le_self _ _) (Nat.mod_lt _ (Nat.two_pow_pos w))) h.count
  have hbl := StringInfo.bytes_length hd
  have hlow : BitVec.ofNat w ((d.length % 2 ^ w) <<< 3) = BitVec.ofNat w (d.length <<< 3) := by
    apply BitVec.eq_of_toNat_eq
    rw [BitVec.toNat_ofNat, BitVec.toNat_ofNat, Nat.shiftLeft_eq, Nat.shiftLeft_eq, Nat.mul_mod, Nat.mod_mod, ← Nat.mul_mod]
  rw [hlow] at hcnt
  have hmod : (L + d.length % 2 ^ w) % A.block = (m ++ d.bytes).length % A.block := by
    rw [List.length_append, hbl, Nat.add_mod, h.mod, ← Nat.add_mod]
    obtain ⟨k, hk, hkw⟩ := hA.block
    rw [Nat.add_mod, Nat.add_mod m.length d.length, hk,
      Nat.mod_mod_of_dvd d.length (Nat.pow_dvd_pow 2 (by omega : k ≤ w))]
  unfold updateSha
  simp only []
  by_cases h0 : s.offset ≠ 0
  · rw [if_pos h0]
    generalize hi : (if A.block - s.offset > d.length then d.length else A.block - s.offset) = i
    have hil : i ≤ d.length ∧ i ≤ A.block - s.offset := by rw [← hi]; split <;> omega
    have hblen : ((d.datum.drop 0).take i).length = i := by simp; omega
    rw [rdN_ok (by omega), Res.ok_bind, wrN_ok (by rw [hblen]; omega), Res.ok_bind]
    generalize hb : (d.datum.drop 0).take i = b at hblen
    have hdb : d.bytes = b ++ (d.datum.drop i).take (d.length - i) := by
      unfold StringInfo.bytes
      rw [← hb, List.drop_zero]
      conv => lhs; rw [show d.length = i + (d.length - i) by omega, List.take_add]
    have hpre : (s.message.take s.offset ++ b ++ s.message.drop (s.offset + b.length)).take (t ++ b).length
        = t ++ b := by
      rw [hoff, htake]; exact List.take_left' rfl
    have hlen : (s.message.take s.offset ++ b ++ s.message.drop (s.offset + b.length)).length
        = A.block + maxCipherBlocksize := by simp; omega
    by_cases h1 : s.offset + i ≠ A.block
    · rw [if_pos h1]
      have hid : i = d.length := by
        rw [← hi] at h1 ⊢
        split
        · rfl
        · rename_i hc; rw [if_neg hc] at h1; omega
      have hdb' : d.bytes = b := by rw [hdb, hid]; simp
      refine ⟨_, rfl, ⟨a, t ++ b, ?_, ha, ?_, ?_, ?_, hacc⟩, hlen, h.digest, hcnt, hmod⟩
      · rw [hm, hdb', List.append_assoc]
      · rw [List.length_append, hblen]; omega
      · rw [List.length_append, hblen]; simp only []; omega
      · exact hpre
    · rw [if_neg h1]
      have h1 : s.offset + i = A.block := by omega
      have htb : (t ++ b).length = A.block := by rw [List.length_append, hblen]; omega
      obtain ⟨r, g1, g2, g3, g4, g5, a', t', g6, g7⟩ := shaBlocks_holds hA d.datum (d.length + 1)
        (transformSha A ⟨s.accumulator, s.low + BitVec.ofNat w (d.length <<< 3),
          (if s.low + BitVec.ofNat w (d.length <<< 3) < s.low then s.high + 1 else s.high) + A.highOf d.length,
          s.offset + i, s.message.take s.offset ++ b ++ s.message.drop (s.offset + b.length), s.digest⟩)
        i (d.length - i) (a ++ (t ++ b)) (by omega) (by omega)
        (by rw [List.length_append, htb]; exact Nat.dvd_add ha (Nat.dvd_refl _)) hlen
        (by
          show A.transform s.accumulator (List.take A.block _) = _
          rw [md_append hpos ha, md_one hpos htb, hacc, ← htb, hpre])
      refine ⟨r, g1, ⟨a', t', ?_, g7⟩, g5, ?_, ?_, hmod⟩
      · rw [← g6, hm, hdb]; simp only [List.append_assoc]
      · rw [g4]; exact h.digest
      · rw [g2, g3]; exact hcnt
  · rw [if_neg h0]
    have ht0 : t = [] := List.length_eq_zero_iff.mp (by omega)
    obtain ⟨r, g1, g2, g3, g4, g5, a', t', g6, g7⟩ := shaBlocks_holds hA d.datum (d.length + 1)
        ⟨s.accumulator, s.low + BitVec.ofNat w (d.length <<< 3),
          (if s.low + BitVec.ofNat w (d.length <<< 3) < s.low then s.high + 1 else s.high) + A.highOf d.length,
          s.offset, s.message, s.digest⟩ 0 d.length a (by omega) (by omega) ha hml hacc
    refine ⟨r, g1, ⟨a', t', ?_, g7⟩, g5, ?_, ?_, hmod⟩
    · rw [← g6, hm, ht0, List.append_nil]; rfl
    · rw [g4]; exact h.digest
    · rw [g2, g3]; exact hcnt

theorem updateSha_holds {A : ShaAlg w} (hA : A.OK) {s : ShaInfo w} {m : List Byte} (h : ShaHolds A s m)
    {d : StringInfo} (hd : d.WF) (hn : d.length < 2 ^ w) :
    ∃ r, updateSha A s d = .ok r ∧ ShaHolds A r (m ++ d.bytes) := by
  have := updateSha_holdsL hA h hd
  rw [Nat.mod_eq_of_lt hn] at this
  unfold ShaHolds
  rw [List.length_append, StringInfo.bytes_length hd]
  exact this

/-! ### Finalize -/

theorem shaWordBytes_be (_hw : w = 8 * (w / 8)) (x : BitVec w) : shaWordBytes x = be (w / 8) x.toNat := by
  unfold shaWordBytes be
  refine List.map_congr_left fun i _ => ?_
  apply BitVec.eq_of_toNat_eq
  rw [BitVec.toNat_setWidth, BitVec.toNat_ushiftRight, BitVec.toNat_ofNat, Nat.shiftRight_eq_div_pow,
    show (256:Nat) = 2 ^ 8 from rfl, ← Nat.pow_mul]

theorem be_length (k v : Nat) : (be k v).length = k := by simp [be]

theorem be_mod (k v : Nat) : be k (v % 256 ^ k) = be k v := by
  unfold be
  refine List.map_congr_left fun i hi => ?_
  have hi : i < k := List.mem_range.mp hi
  apply BitVec.eq_of_toNat_eq
  rw [BitVec.toNat_ofNat, BitVec.toNat_ofNat]
  have : 256 ^ k = 256 ^ (k - 1 - i) * 256 ^ (i + 1) := by rw [← Nat.pow_add]; congr 1; omega
  rw [this, Nat.mod_mul_right_div_self, Nat.mod_mod_of_dvd]
  exact ⟨256 ^ i, by rw [Nat.pow_succ, Nat.mul_comm]⟩

theorem be_add (j k a b : Nat) (hb : b < 256 ^ k) : be (j + k) (a * 256 ^ k + b) = be j a ++ be k b := by
  unfold be
  rw [List.range_add, List.map_append, List.map_map]
  congr 1
  · refine List.map_congr_left fun i hi => ?_
    have hi : i < j := List.mem_range.mp hi
    rw [show j + k - 1 - i = k + (j - 1 - i) by omega, Nat.pow_add, ← Nat.div_div_eq_div_mul, Nat.mul_comm a,
      Nat.mul_add_div (Nat.pow_pos (by decide)), Nat.div_eq_of_lt hb]; rfl
  · refine List.map_congr_left fun i hi => ?_
    have hi : i < k := List.mem_range.mp hi
    show BitVec.ofNat 8 ((a * 256 ^ k + b) / 256 ^ (j + k - 1 - (j + i))) = _
    apply BitVec.eq_of_toNat_eq
    rw [BitVec.toNat_ofNat, BitVec.toNat_ofNat, show j + k - 1 - (j + i) = k - 1 - i by omega]
    have : 256 ^ k = 256 ^ (k - 1 - i) * (2 ^ 8 * 256 ^ i) := by
      rw [show (2:Nat) ^ 8 * 256 ^ i = 256 ^ (i + 1) by rw [Nat.pow_succ, Nat.mul_comm]; rfl, ← Nat.pow_add]
      congr 1; omega
    rw [this, show a * (256 ^ (k - 1 - i) * (2 ^ 8 * 256 ^ i)) = 256 ^ (k - 1 - i) * (a * (2 ^ 8 * 256 ^ i)) from by
      rw [Nat.mul_left_comm], Nat.mul_add_div (Nat.pow_pos (by decide)),
      show a * (2 ^ 8 * 256 ^ i) = 2 ^ 8 * (a * 256 ^ i) from Nat.mul_left_comm .., Nat.mul_add_mod]

theorem shaLength_be {A : ShaAlg w} (hA : A.OK) {high low : BitVec w} {L : Nat}
    (h : high.toNat * 2 ^ w + low.toNat = 8 * L % 2 ^ (2 * w)) :
    shaWordBytes high ++ shaWordBytes low = be A.lenBytes (8 * L) := by
  have hw := hA.bytes
  have e : (256:Nat) ^ (w / 8) = 2 ^ w := by
    rw [show (256:Nat) = 2 ^ 8 from rfl, ← Nat.pow_mul, ← hw]
  rw [shaWordBytes_be hw, shaWordBytes_be hw, hA.len, ← be_mod _ (8 * L), Nat.two_mul (w / 8),
    ← be_add _ _ _ _ (by rw [e]; exact low.isLt), e, h, Nat.pow_add, e, ← Nat.pow_add, Nat.two_mul w]

theorem flatMap_wordBytes_length (hw : w = 8 * (w / 8)) (l : List (BitVec w)) :
    (l.flatMap shaWordBytes).length = l.length * (w / 8) := by
  induction l with
  | nil => simp
  | cons x l ih =>
    rw [List.flatMap_cons, List.length_append, ih, shaWordBytes_be hw, be_length, List.length_cons, Nat.add_mul]
    omega

/-- The digest after the bytes `m`. -/
theorem finalizeSha_holdsL {A : ShaAlg w} (hA : A.OK) {s : ShaInfo w} {m : List Byte} {L : Nat} (h : ShaHoldsL A s m L) :
    ∃ r, finalizeSha A s = .ok r ∧ shaDigest A r =
      ((md A.block A.transform A.init (pad A.block A.lenBytes m (be A.lenBytes (8 * L)))).take
        A.digestWords).flatMap shaWordBytes ∧
      r.message.length = A.block + maxCipherBlocksize ∧
      r.digest.length = A.digestWords * (w / 8) + maxCipherBlocksize := by
  have hpos := hA.pos
  obtain ⟨a, t, hm, ha, ht, hoff, htake, hacc⟩ := h.split
  have hml := h.message
  have hlt := hA.lt
  have hM : maxCipherBlocksize = 128 := rfl
  have hcount : ((s.low >>> 3) &&& BitVec.ofNat w (A.block - 1)).toNat = t.length := by
    obtain ⟨k, hk, hkw⟩ := hA.block
    rw [hk, count_offset hkw _ _ _ h.count, ← hk, h.mod, hm, List.length_append]
    obtain ⟨q, hq⟩ := ha
    rw [hq, Nat.mul_add_mod, Nat.mod_eq_of_lt ht]
  have hmod : m.length % A.block = t.length := by
    obtain ⟨q, hq⟩ := ha
    rw [hm, List.length_append, hq, Nat.mul_add_mod, Nat.mod_eq_of_lt ht]
  have hlen : ((shaWordBytes s.high ++ shaWordBytes s.low)).length = A.lenBytes := by
    rw [shaLength_be hA h.count, be_length]
  -- the common end: a message buffer whose first `block - lenBytes` bytes are `x`
  have fin : ∀ (acc : List (BitVec w)) (off : Nat) (mm x : List Byte), mm.length = A.block + maxCipherBlocksize →
      x.length = A.block - A.lenBytes → mm.take x.length = x → A.digestWords ≤ acc.length →
      ∃ r, (do
        let m ← wrN mm (A.block - A.lenBytes) (shaWordBytes s.high ++ shaWordBytes s.low)
        let s' := transformSha A ⟨acc, s.low, s.high, off, m, s.digest⟩
        let g ← wrN s'.digest 0 ((s'.accumulator.take A.digestWords).flatMap shaWordBytes)
        Res.ok ({ s' with digest := g } : ShaInfo w)) = .ok r ∧
        shaDigest A r = ((A.transform acc (x ++ be A.lenBytes (8 * L))).take A.digestWords).flatMap
          shaWordBytes ∧ r.message.length = A.block + maxCipherBlocksize ∧
        r.digest.length = A.digestWords * (w / 8) + maxCipherBlocksize := by
    intro acc off mm x h1 h2 h3 h4
    rw [wrN_ok (by rw [hlen]; omega), Res.ok_bind]
    have hx : (mm.take (A.block - A.lenBytes) ++ (shaWordBytes s.high ++ shaWordBytes s.low) ++
        mm.drop (A.block - A.lenBytes + (shaWordBytes s.high ++ shaWordBytes s.low).length)).take A.block =
        x ++ be A.lenBytes (8 * L) := by
      rw [← h2, h3, shaLength_be hA h.count]
      refine List.take_left' ?_
      rw [List.length_append, be_length, h2]; omega
    have hdl : (((A.transform acc (x ++ be A.lenBytes (8 * L))).take A.digestWords).flatMap
        shaWordBytes).length = A.digestWords * (w / 8) := by
      rw [flatMap_wordBytes_length hA.bytes, List.length_take, Nat.min_eq_left (hA.transform _ _)]
    simp only [transformSha]
    rw [hx, wrN_ok (by rw [hdl, h.digest]; omega), Res.ok_bind]
    refine ⟨_, rfl, ?_, ?_, ?_⟩
    · unfold shaDigest
      conv => lhs; rw [← hdl]
      exact take_wrN_zero
    · simp only [List.length_append, List.length_take, List.length_drop] at hlen ⊢; omega
    · have := h.digest
      simp only [List.take_zero, List.nil_append, List.length_append, List.length_drop, hdl]; omega
  unfold finalizeSha
  simp only []
  rw [hcount]
  unfold wr
  rw [if_pos (by omega), Res.ok_bind]
  have hset : (s.message.set t.length 0x80).take (t.length + 1) = t ++ [0x80] := by
    rw [List.take_add_one, List.take_set_of_le (Nat.le_refl _), htake, List.getElem?_set_self (by omega)]; rfl
  have hsetl : (s.message.set t.length 0x80).length = A.block + maxCipherBlocksize := by
    rw [List.length_set, hml]
  generalize s.message.set t.length 0x80 = mm at hset hsetl
  by_cases hc : t.length + 1 ≤ A.block - A.lenBytes
  · rw [if_pos hc, wrN_ok (by rw [List.length_replicate]; omega)]
    simp only [Res.ok_bind]
    obtain ⟨r, h1, h2, h3⟩ := fin s.accumulator s.offset
      (mm.take (t.length + 1) ++ List.replicate (A.block - A.lenBytes - (t.length + 1)) 0 ++
        mm.drop (t.length + 1 + (List.replicate (A.block - A.lenBytes - (t.length + 1)) (0 : Byte)).length))
      (t ++ [0x80] ++ List.replicate (A.block - A.lenBytes - (t.length + 1)) 0)
      (by simp; omega) (by simp; omega)
      (by rw [hset]; exact List.take_left' rfl)
      (by
        rw [hacc]; exact md_inv (fun l : List (BitVec w) => A.digestWords ≤ l.length) (fun _ _ _ => hA.transform _ _) hA.init _)
    refine ⟨r, h1, ?_, h3⟩
    rw [h2]
    congr 2
    have hz : (2 * A.block - 1 - A.lenBytes - m.length % A.block) % A.block = A.block - A.lenBytes - (t.length + 1) := by
      rw [hmod, Nat.mod_eq_sub_mod (by omega), Nat.mod_eq_of_lt (by omega)]; omega
    unfold pad
    rw [hz]
    conv => rhs; rw [show m ++ 0x80 :: List.replicate (A.block - A.lenBytes - (t.length + 1)) (0 : Byte) ++
      be A.lenBytes (8 * L) = a ++ (t ++ [0x80] ++ List.replicate (A.block - A.lenBytes - (t.length + 1)) 0 ++
      be A.lenBytes (8 * L)) from by
        conv => lhs; rw [show m ++ (0x80 :: List.replicate (A.block - A.lenBytes - (t.length + 1)) (0 : Byte)) =
          (a ++ t) ++ (0x80 :: List.replicate (A.block - A.lenBytes - (t.length + 1)) (0 : Byte)) from by rw [← hm]]
        simp only [List.append_assoc, List.cons_append, List.nil_append]]
    rw [md_append hpos ha, ← hacc, md_one hpos]
    simp [be_length]; omega
  · rw [if_neg hc, wrN_ok (by rw [List.length_replicate]; omega)]
    simp only [Res.ok_bind, transformSha]
    have hblk : (mm.take (t.length + 1) ++ List.replicate (A.block - (t.length + 1)) 0 ++
        mm.drop (t.length + 1 + (List.replicate (A.block - (t.length + 1)) (0 : Byte)).length)).take A.block =
        t ++ [0x80] ++ List.replicate (A.block - (t.length + 1)) 0 := by
      rw [hset]; refine List.take_left' ?_
      simp; omega
    have hl2 : (mm.take (t.length + 1) ++ List.replicate (A.block - (t.length + 1)) 0 ++
        mm.drop (t.length + 1 + (List.replicate (A.block - (t.length + 1)) (0 : Byte)).length)).length =
        A.block + maxCipherBlocksize := by simp; omega
    rw [hblk]
    generalize mm.take (t.length + 1) ++ List.replicate (A.block - (t.length + 1)) 0 ++
        mm.drop (t.length + 1 + (List.replicate (A.block - (t.length + 1)) (0 : Byte)).length) = m2 at hl2
    rw [wrN_ok (by rw [List.length_replicate]; omega)]
    simp only [Res.ok_bind]
    obtain ⟨r, h1, h2, h3⟩ := fin (A.transform s.accumulator (t ++ [0x80] ++ List.replicate (A.block - (t.length + 1)) 0))
      s.offset
      (m2.take 0 ++ List.replicate (A.block - A.lenBytes) 0 ++
        m2.drop (0 + (List.replicate (A.block - A.lenBytes) (0 : Byte)).length))
      (List.replicate (A.block - A.lenBytes) 0)
      (by simp; omega) (by simp) take_wrN_zero (hA.transform _ _)
    refine ⟨r, h1, ?_, h3⟩
    rw [h2]
    congr 2
    have hz : (2 * A.block - 1 - A.lenBytes - m.length % A.block) % A.block =
        (A.block - (t.length + 1)) + (A.block - A.lenBytes) := by
      rw [hmod, Nat.mod_eq_of_lt (by omega)]; omega
    unfold pad
    rw [hz, ← List.replicate_append_replicate]
    conv => rhs; rw [show m ++ 0x80 :: (List.replicate (A.block - (t.length + 1)) (0 : Byte) ++
        List.replicate (A.block - A.lenBytes) 0) ++ be A.lenBytes (8 * L) =
        a ++ ((t ++ [0x80] ++ List.replicate (A.block - (t.length + 1)) 0) ++
          (List.replicate (A.block - A.lenBytes) 0 ++ be A.lenBytes (8 * L))) from by
        conv => lhs; rw [show m ++ (0x80 :: (List.replicate (A.block - (t.length + 1)) (0 : Byte) ++
          List.replicate (A.block - A.lenBytes) 0)) = (a ++ t) ++ (0x80 :: (List.replicate (A.block - (t.length + 1))
          (0 : Byte) ++ List.replicate (A.block - A.lenBytes) 0)) from by rw [← hm]]
        simp only [List.append_assoc, List.cons_append, List.nil_append]]
    have hl1 : (t ++ [0x80] ++ List.replicate (A.block - (t.length + 1)) (0 : Byte)).length = A.block := by
      simp; omega
    rw [md_append hpos ha, ← hacc, md_append hpos (by rw [hl1]; exact Nat.dvd_refl _), md_one hpos hl1, md_one hpos]
    simp [be_length]; omega

theorem finalizeSha_holds {A : ShaAlg w} (hA : A.OK) {s : ShaInfo w} {m : List Byte} (h : ShaHolds A s m) :
    ∃ r, finalizeSha A s = .ok r ∧ shaDigest A r =
      ((md A.block A.transform A.init (pad A.block A.lenBytes m (be A.lenBytes (8 * m.length)))).take
        A.digestWords).flatMap shaWordBytes ∧
      r.message.length = A.block + maxCipherBlocksize ∧
      r.digest.length = A.digestWords * (w / 8) + maxCipherBlocksize := finalizeSha_holdsL hA h

theorem initializeSha_holds {A : ShaAlg w} (hA : A.OK) {s : ShaInfo w}
    (h1 : s.message.length = A.block + maxCipherBlocksize)
    (h2 : s.digest.length = A.digestWords * (w / 8) + maxCipherBlocksize) :
    ShaHolds A (initializeSha A s) [] := by
  have hpos := hA.pos
  refine ⟨⟨[], [], rfl, ⟨0, rfl⟩, hpos, rfl, rfl, ?_⟩, h1, h2, ?_, rfl⟩
  · rw [md_short (by simpa using hpos)]; rfl
  · simp [initializeSha]

theorem acquireSha_holds {A : ShaAlg w} (hA : A.OK) : ShaHolds A (acquireSha A) [] := by
  have := initializeSha_holds hA (s := acquireSha A) (by simp [acquireSha]) (by simp [acquireSha])
  exact this

end Wizard

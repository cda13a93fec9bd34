import Verif.Lemmas.Hash
import Verif.Lemmas.HashTransform
/-! MD5: the transform is the published one, and the buffering invariant. -/
namespace Wizard
open Spec.Hash

theorem md5RotateLeft_eq (x : BitVec 32) {n : Nat} (h : n < 32) : md5RotateLeft x n = x.rotateLeft n := by
  rw [BitVec.rotateLeft_eq_rotateLeftAux_of_lt h]; rfl

theorem md5K_eq : ∀ t < 64, md5K.getD t 0 = MD5.T t := by decide +kernel

/-- The variables of the transform for a value of the specification. -/
def md5R (v : MD5.V) (j p : Nat) : Md5Regs := ⟨v.a, v.b, v.c, v.d, j, p⟩

/-- One operation of the specification. -/
def md5Op (blk : List Byte) (i : Nat) (v : MD5.V) : MD5.V :=
  ⟨v.d, v.b + (v.a + MD5.aux i v.b v.c v.d + MD5.word blk (MD5.k i) + MD5.T i).rotateLeft (MD5.s i), v.b, v.c⟩

theorem md5Steps_succ (blk : List Byte) (i : Nat) (v : MD5.V) :
    MD5.steps blk (i + 1) v = md5Op blk i (MD5.steps blk i v) := by
  rw [MD5.steps.eq_def blk (i + 1) v]; rfl

theorem md5Turn_eq (f : BitVec 32 → BitVec 32 → BitVec 32 → BitVec 32) (dj s0 s1 s2 s3 j p : Nat)
    (msg : List (BitVec 32)) (blk : List Byte) (v : MD5.V)
    (hf : ∀ c < 4, ∀ x y z, MD5.aux (p + c) x y z = f x y z)
    (hm : ∀ c < 4, msg.getD ((j + c * dj) &&& 15) 0 = MD5.word blk (MD5.k (p + c)))
    (hs : MD5.s p = s0 ∧ MD5.s (p + 1) = s1 ∧ MD5.s (p + 2) = s2 ∧ MD5.s (p + 3) = s3)
    (hs' : s0 < 32 ∧ s1 < 32 ∧ s2 < 32 ∧ s3 < 32) (hp : p + 3 < 64) :
    md5Turn f dj s0 s1 s2 s3 msg (md5R (MD5.steps blk p v) j p) = md5R (MD5.steps blk (p + 4) v) (j + 4 * dj) (p + 4) := by
  rw [show p + 4 = p + 3 + 1 from rfl, md5Steps_succ, show p + 3 = p + 2 + 1 from rfl, md5Steps_succ,
    show p + 2 = p + 1 + 1 from rfl, md5Steps_succ, md5Steps_succ]
  generalize MD5.steps blk p v = u
  obtain ⟨a0, a1, a2, a3⟩ := hs
  obtain ⟨b0, b1, b2, b3⟩ := hs'
  have k0 := md5K_eq p (by omega); have k1 := md5K_eq (p + 1) (by omega)
  have k2 := md5K_eq (p + 2) (by omega); have k3 := md5K_eq (p + 3) (by omega)
  have m0 := hm 0 (by decide); have m1 := hm 1 (by decide); have m2 := hm 2 (by decide); have m3 := hm 3 (by decide)
  have f0 := hf 0 (by decide); have f1 := hf 1 (by decide); have f2 := hf 2 (by decide); have f3 := hf 3 (by decide)
  simp only [Nat.add_zero, Nat.zero_mul, Nat.one_mul] at m0 m1 m2 m3 f0
  unfold md5Turn md5R md5Op
  simp only [show p + 1 + 1 = p + 2 from rfl, show p + 2 + 1 = p + 3 from rfl, f0, f1, f2, f3, a0, a1, a2, a3, k0, k1, k2, k3,
    md5RotateLeft_eq _ b0, md5RotateLeft_eq _ b1, md5RotateLeft_eq _ b2, md5RotateLeft_eq _ b3,
    m0, m1, show j + dj + dj = j + 2 * dj by omega, m2, show j + 2 * dj + dj = j + 3 * dj by omega, m3,
    show j + 3 * dj + dj = j + 4 * dj by omega]
  generalize MD5.word blk (MD5.k p) = w0
  generalize MD5.word blk (MD5.k (p + 1)) = w1
  generalize MD5.word blk (MD5.k (p + 2)) = w2
  generalize MD5.word blk (MD5.k (p + 3)) = w3
  generalize MD5.T p = t0
  generalize MD5.T (p + 1) = t1
  generalize MD5.T (p + 2) = t2
  generalize MD5.T (p + 3) = t3
  have add4 : ∀ (a f w t : BitVec 32), a + (f + w + t) = a + f + w + t := fun a f w t => by
    rw [← BitVec.add_assoc, ← BitVec.add_assoc]
  simp only [add4]
  simp only [BitVec.add_comm _ u.b]
  generalize u.b + (u.a + f u.b u.c u.d + w0 + t0).rotateLeft s0 = A
  simp only [BitVec.add_comm _ A]
  generalize A + (u.d + f A u.b u.c + w1 + t1).rotateLeft s1 = D
  simp only [BitVec.add_comm _ D]
  generalize D + (u.c + f D A u.b + w2 + t2).rotateLeft s2 = C
  simp only [BitVec.add_comm _ C]

theorem md5Loop_eq (f : BitVec 32 → BitVec 32 → BitVec 32 → BitVec 32) (dj s0 s1 s2 s3 j p : Nat)
    (msg : List (BitVec 32)) (blk : List Byte) (v : MD5.V)
    (hf : ∀ c < 16, ∀ x y z, MD5.aux (p + c) x y z = f x y z)
    (hm : ∀ c < 16, msg.getD ((j + c * dj) &&& 15) 0 = MD5.word blk (MD5.k (p + c)))
    (hs : ∀ i < 4, MD5.s (p + 4 * i) = s0 ∧ MD5.s (p + 4 * i + 1) = s1 ∧ MD5.s (p + 4 * i + 2) = s2 ∧
      MD5.s (p + 4 * i + 3) = s3)
    (hs' : s0 < 32 ∧ s1 < 32 ∧ s2 < 32 ∧ s3 < 32) (hp : p + 15 < 64) :
    md5Loop f dj s0 s1 s2 s3 msg (md5R (MD5.steps blk p v) j p) =
      md5R (MD5.steps blk (p + 16) v) (j + 16 * dj) (p + 16) := by
  have key : ∀ n ≤ 4, (List.range n).foldl (fun r _ => md5Turn f dj s0 s1 s2 s3 msg r)
      (md5R (MD5.steps blk p v) j p) = md5R (MD5.steps blk (p + 4 * n) v) (j + 4 * n * dj) (p + 4 * n) := by
    intro n hn
    induction n with
    | zero => simp
    | succ n ih =>
      rw [List.range_succ, List.foldl_append, ih (by omega)]
      show md5Turn _ _ _ _ _ _ _ _ = _
      rw [md5Turn_eq f dj s0 s1 s2 s3 _ _ msg blk v (fun c hc x y z => ?_) (fun c hc => ?_) (hs n (by omega)) hs' (by omega)]
      · rw [show p + 4 * n + 4 = p + 4 * (n + 1) by omega, show j + 4 * n * dj + 4 * dj = j + 4 * (n + 1) * dj by
          rw [show 4 * (n + 1) = 4 * n + 4 by omega, Nat.add_mul]; omega]
      · rw [show p + 4 * n + c = p + (4 * n + c) by omega]; exact hf _ (by omega) x y z
      · rw [show p + 4 * n + c = p + (4 * n + c) by omega, ← hm _ (by omega), Nat.add_mul]
        congr 2; omega
  exact key 4 (Nat.le_refl _)

/-- The accumulator holding a value. -/
def md5Acc (v : MD5.V) : List (BitVec 32) := [v.a, v.b, v.c, v.d]

theorem transformMd5_eq (v : MD5.V) (msg : List (BitVec 32)) (b : List Byte)
    (hm : ∀ i < 16, msg.getD i 0 = MD5.word b i) :
    transformMd5 (md5Acc v) msg = md5Acc (MD5.compress v b) := by
  have side : ∀ (j dj p : Nat), (∀ c < 16, (j + c * dj) &&& 15 = MD5.k (p + c) ∧ MD5.k (p + c) < 16) →
      ∀ c < 16, msg.getD ((j + c * dj) &&& 15) 0 = MD5.word b (MD5.k (p + c)) := by
    intro j dj p h c hc
    obtain ⟨h1, h2⟩ := h c hc
    rw [h1, hm _ h2]
  have l1 := md5Loop_eq md5F 1 7 12 17 22 0 0 msg b v
    (fun c hc x y z => by unfold MD5.aux md5F; rw [if_pos (by omega)])
    (side 0 1 0 (by decide)) (by decide) (by decide) (by decide)
  have l2 := md5Loop_eq md5G 5 5 9 14 20 1 16 msg b v
    (fun c hc x y z => by unfold MD5.aux md5G; rw [if_neg (by omega), if_pos (by omega)])
    (side 1 5 16 (by decide)) (by decide) (by decide) (by decide)
  have l3 := md5Loop_eq md5H 3 4 11 16 23 5 32 msg b v
    (fun c hc x y z => by unfold MD5.aux md5H; rw [if_neg (by omega), if_neg (by omega), if_pos (by omega)])
    (side 5 3 32 (by decide)) (by decide) (by decide) (by decide)
  have l4 := md5Loop_eq md5I 7 6 10 15 21 0 48 msg b v
    (fun c hc x y z => by unfold MD5.aux md5I; rw [if_neg (by omega), if_neg (by omega), if_neg (by omega)])
    (side 0 7 48 (by decide)) (by decide) (by decide) (by decide)
  have hj : ∀ (u : MD5.V) (j j' p : Nat), ({ md5R u j p with j := j' } : Md5Regs) = md5R u j' p := fun _ _ _ _ => rfl
  unfold transformMd5 MD5.compress
  simp only [md5Acc, List.getD_cons_zero, List.getD_cons_succ]
  rw [show (⟨v.a, v.b, v.c, v.d, 0, 0⟩ : Md5Regs) = md5R (MD5.steps b 0 v) 0 0 from rfl, l1, hj,
    show (0 + 16) = 16 from rfl, l2, hj, show (16 + 16) = 32 from rfl, l3, hj, show (32 + 16) = 48 from rfl, l4,
    show (48 + 16) = 64 from rfl]
  generalize MD5.steps b 64 v = r
  simp only [md5R]

theorem md5Word_eq (b : List Byte) (i : Nat) : md5Word b i = MD5.word b i := by
  unfold md5Word MD5.word
  generalize b.getD (4 * i) 0 = b0
  generalize b.getD (4 * i + 1) 0 = b1
  generalize b.getD (4 * i + 2) 0 = b2
  generalize b.getD (4 * i + 3) 0 = b3
  apply BitVec.eq_of_getLsbD_eq
  intro i hi
  have hb : ∀ (x : Byte) k, 8 ≤ k → x.getLsbD k = false := fun x k h => BitVec.getLsbD_of_ge x k h
  simp only [BitVec.getLsbD_or, BitVec.getLsbD_shiftLeft, BitVec.getLsbD_append, BitVec.getLsbD_setWidth]
  rcases (show i < 8 ∨ (8 ≤ i ∧ i < 16) ∨ (16 ≤ i ∧ i < 24) ∨ (24 ≤ i ∧ i < 32) by omega) with h | h | h | h <;>
  · simp (disch := omega) only [if_pos, if_neg, decide_eq_true, decide_eq_false, Bool.and_true, Bool.and_false, hb,
      Bool.true_and, Bool.false_and, Bool.or_false, Bool.false_or, Bool.not_true, Bool.not_false, Nat.sub_sub]

theorem md5Words_getD (b : List Byte) (n : Nat) {i : Nat} (hi : i < n) : (md5Words n b).getD i 0 = MD5.word b i := by
  unfold md5Words
  rw [List.getD_eq_getElem?_getD, List.getElem?_map, List.getElem?_range hi]
  exact md5Word_eq b i

/-! ### The invariant -/

/-- The transform as a function of the bytes of a block. -/
def md5Block (acc : List (BitVec 32)) (b : List Byte) : List (BitVec 32) := transformMd5 acc (md5Words 16 b)

/-- The initial accumulator. -/
def md5Init : List (BitVec 32) := [0x67452301, 0xefcdab89, 0x98badcfe, 0x10325476]

theorem md5_md (m : List Byte) : md 64 md5Block md5Init m = md5Acc (md 64 MD5.compress MD5.init m) :=
  md_map md5Acc (fun v b _ => transformMd5_eq v _ b fun _ hi => md5Words_getD b 16 hi) MD5.init m

/-- The state after the bytes `m` have been fed. -/
structure Md5Holds (s : Md5Info) (m : List Byte) : Prop where
  split : ∃ a t, m = a ++ t ∧ 64 ∣ a.length ∧ t.length < 64 ∧ s.message.take t.length = t ∧
    s.accumulator = md 64 md5Block md5Init a
  message : s.message.length = 64 + maxCipherBlocksize
  digest : s.digest.length = 16 + maxCipherBlocksize
  count : s.high.toNat * 2 ^ 32 + s.low.toNat = 8 * m.length % 2 ^ (2 * 32)

theorem md5Words_take (m : List Byte) {n k : Nat} (h : 4 * n ≤ k) : md5Words n (m.take k) = md5Words n m := by
  unfold md5Words
  refine List.map_congr_left fun i hi => ?_
  have hi : i < n := List.mem_range.mp hi
  unfold md5Word
  simp only [List.getD_eq_getElem?_getD]
  rw [List.getElem?_take_of_lt (by omega), List.getElem?_take_of_lt (by omega), List.getElem?_take_of_lt (by omega),
    List.getElem?_take_of_lt (by omega)]

theorem take_set_succ {m : List Byte} {i : Nat} {x : Byte} (h : i < m.length) :
    (m.set i x).take (i + 1) = m.take i ++ [x] := by
  rw [List.take_add_one, List.take_set_of_le (Nat.le_refl _), List.getElem?_set_self h]; rfl

theorem md5Bytes_holds (datum : List Byte) (count : Nat) : ∀ (i : Nat) (s : Md5Info) (a t : List Byte),
    i + count ≤ datum.length → 64 ∣ a.length → t.length < 64 → s.message.take t.length = t →
    s.accumulator = md 64 md5Block md5Init a → s.message.length = 64 + maxCipherBlocksize →
    ∃ r, md5Bytes datum count i t.length s = .ok r ∧ r.low = s.low ∧ r.high = s.high ∧ r.digest = s.digest ∧
      r.message.length = 64 + maxCipherBlocksize ∧
      ∃ a' t', a ++ t ++ (datum.drop i).take count = a' ++ t' ∧ 64 ∣ a'.length ∧ t'.length < 64 ∧
        r.message.take t'.length = t' ∧ r.accumulator = md 64 md5Block md5Init a' := by
  induction count with
  | zero =>
    intro i s a t _ ha ht htake hacc hml
    exact ⟨s, rfl, rfl, rfl, rfl, hml, a, t, by simp, ha, ht, htake, hacc⟩
  | succ count ih =>
    intro i s a t hi ha ht htake hacc hml
    have hM : maxCipherBlocksize = 128 := rfl
    unfold md5Bytes
    have hrd : rd datum i = .ok datum[i] := by unfold rd; rw [List.getElem?_eq_getElem (by omega)]
    rw [hrd, Res.ok_bind]
    unfold wr
    rw [if_pos (by omega), Res.ok_bind]
    have hd : (datum.drop i).take (count + 1) = [datum[i]] ++ (datum.drop (i + 1)).take count := by
      rw [List.drop_eq_getElem_cons (by omega)]; rfl
    have htk : (s.message.set t.length datum[i]).take (t ++ [datum[i]]).length = t ++ [datum[i]] := by
      rw [List.length_append, List.length_singleton, take_set_succ (by omega), htake]
    have hl1 : (t ++ [datum[i]]).length = t.length + 1 := by simp
    have hml' : (s.message.set t.length datum[i]).length = 64 + maxCipherBlocksize := by
      rw [List.length_set]; exact hml
    by_cases hc : t.length + 1 ≠ 0x40
    · rw [if_pos hc, ← hl1]
      obtain ⟨r, h1, h2, h3, h4, h5, a', t', h6, h7⟩ := ih (i + 1)
        ⟨s.accumulator, s.low, s.high, s.message.set t.length datum[i], s.digest⟩ a (t ++ [datum[i]])
        (by omega) ha (by omega) htk hacc hml'
      refine ⟨r, h1, h2, h3, h4, h5, a', t', ?_, h7⟩
      rw [← h6, hd]; simp only [List.append_assoc]
    · rw [if_neg hc]
      have hl64 : (t ++ [datum[i]]).length = 64 := by omega
      obtain ⟨r, h1, h2, h3, h4, h5, a', t', h6, h7⟩ := ih (i + 1)
        ⟨transformMd5 s.accumulator (md5Words 16 (s.message.set t.length datum[i])), s.low, s.high,
          s.message.set t.length datum[i], s.digest⟩ (a ++ (t ++ [datum[i]])) []
        (by omega) (by rw [List.length_append, hl64]; exact Nat.dvd_add ha (Nat.dvd_refl _)) (by decide) rfl
        (by
          show transformMd5 s.accumulator (md5Words 16 (s.message.set t.length datum[i])) = _
          rw [md_append (by decide) ha, md_one (by decide) hl64, ← hacc]
          show _ = transformMd5 _ (md5Words 16 _)
          rw [← htk, hl64, md5Words_take _ (by decide)]) hml'
      refine ⟨r, h1, h2, h3, h4, h5, a', t', ?_, h7⟩
      rw [← h6, hd]; simp only [List.append_assoc, List.nil_append]

theorem md5_offset {s : Md5Info} {m a t : List Byte} (hm : m = a ++ t) (ha : 64 ∣ a.length) (ht : t.length < 64)
    (hc : s.high.toNat * 2 ^ 32 + s.low.toNat = 8 * m.length % 2 ^ (2 * 32)) :
    ((s.low >>> 3) &&& 0x3F).toNat = t.length := by
  have := count_offset (k := 6) (by decide) s.low s.high m.length hc
  rw [show (0x3F : BitVec 32) = BitVec.ofNat 32 (2 ^ 6 - 1) from rfl, this, hm, List.length_append]
  obtain ⟨q, hq⟩ := ha
  rw [hq]; omega

theorem updateMd5_holds {s : Md5Info} {m : List Byte} (h : Md5Holds s m) {d : StringInfo} (hd : d.WF) :
    ∃ r, updateMd5 s d = .ok r ∧ Md5Holds r (m ++ d.bytes) := by
  have hdl : d.length + maxCipherBlocksize ≤ d.datum.length := hd
  obtain ⟨a, t, hm, ha, ht, htake, hacc⟩ := h.split
  have hcnt := count_step (by decide) s.low s.high (BitVec.ofNat 32 (d.length >>> 29)) d.length m.length
    (by rw [BitVec.toNat_ofNat, Nat.shiftRight_eq_div_pow]) h.count
  have hbl := StringInfo.bytes_length hd
  rw [← hbl, ← List.length_append, hbl] at hcnt
  unfold updateMd5
  simp only []
  rw [md5_offset hm ha ht h.count]
  obtain ⟨r, h1, h2, h3, h4, h5, a', t', h6, h7⟩ := md5Bytes_holds d.datum d.length 0
    ⟨s.accumulator, s.low + BitVec.ofNat 32 (d.length <<< 3),
      (if s.low + BitVec.ofNat 32 (d.length <<< 3) < s.low then s.high + 1 else s.high) +
        BitVec.ofNat 32 (d.length >>> 29), s.message, s.digest⟩ a t (by omega) ha ht htake hacc h.message
  refine ⟨r, h1, ⟨a', t', ?_, h7⟩, h5, ?_, ?_⟩
  · rw [← h6, hm]; rfl
  · rw [h4]; exact h.digest
  · rw [h2, h3]; exact hcnt

theorem md5WordBytes_le (x : BitVec 32) : md5WordBytes x = le 4 x.toNat := by
  unfold md5WordBytes le
  refine List.map_congr_left fun i _ => ?_
  apply BitVec.eq_of_toNat_eq
  rw [BitVec.toNat_setWidth, BitVec.toNat_ushiftRight, BitVec.toNat_ofNat, Nat.shiftRight_eq_div_pow,
    show (256:Nat) = 2 ^ 8 from rfl, ← Nat.pow_mul]

theorem le_word (lo hi L : Nat) (h : hi * 2 ^ 32 + lo = 8 * L % 2 ^ 64) (hlo : lo < 2 ^ 32) (x : List Byte) (hx : x.length = 56) :
    MD5.word (x ++ le 8 (8 * L)) 14 = BitVec.ofNat 32 lo ∧ MD5.word (x ++ le 8 (8 * L)) 15 = BitVec.ofNat 32 hi := by
  have key : ∀ k < 8, (x ++ le 8 (8 * L)).getD (56 + k) 0 = BitVec.ofNat 8 (8 * L / 256 ^ k) := by
    intro k hk
    rw [List.getD_eq_getElem?_getD, List.getElem?_append_right (by omega), hx, Nat.add_sub_cancel_left]
    unfold le
    rw [List.getElem?_map, List.getElem?_range hk]; rfl
  have k0 := key 0 (by decide); have k1 := key 1 (by decide); have k2 := key 2 (by decide); have k3 := key 3 (by decide)
  have k4 := key 4 (by decide); have k5 := key 5 (by decide); have k6 := key 6 (by decide); have k7 := key 7 (by decide)
  simp only [Nat.reduceAdd] at k0 k1 k2 k3 k4 k5 k6 k7
  unfold MD5.word
  simp only [Nat.reduceMul, Nat.reduceAdd]
  rw [k0, k1, k2, k3, k4, k5, k6, k7, ← foldl_bytes4, ← foldl_bytes4]
  simp only [List.foldl_cons, List.foldl_nil, BitVec.toNat_ofNat]
  constructor <;>
  · apply BitVec.eq_of_toNat_eq
    rw [BitVec.toNat_ofNat, BitVec.toNat_ofNat]
    omega

/-- The digest after the bytes `m`. -/
theorem finalizeMd5_holds {s : Md5Info} {m : List Byte} (h : Md5Holds s m) :
    ∃ r, finalizeMd5 s = .ok r ∧ md5Digest r = MD5.hash m ∧ r.message.length = 64 + maxCipherBlocksize ∧
      r.digest.length = 16 + maxCipherBlocksize := by
  have hM : maxCipherBlocksize = 128 := rfl
  obtain ⟨a, t, hm, ha, ht, htake, hacc⟩ := h.split
  have hmod : m.length % 64 = t.length := by
    obtain ⟨q, hq⟩ := ha
    rw [hm, List.length_append, hq]; omega
  unfold finalizeMd5
  simp only []
  rw [md5_offset hm ha ht h.count]
  generalize hn : (if t.length < 56 then 56 - t.length else 120 - t.length) = n
  have hn1 : 1 ≤ n ∧ n ≤ 64 ∧ (t.length + n = 56 ∨ t.length + n = 120) := by rw [← hn]; split <;> omega
  have hz : (2 * 64 - 1 - 8 - m.length % 64) % 64 = n - 1 := by rw [hmod, ← hn]; split <;> omega
  unfold acquireStringInfo
  rw [if_pos (by unfold sizeMax; omega), Res.ok_bind, wrN_ok (by simp; omega), Res.ok_bind]
  simp only []
  have hpl : (0x80 :: List.replicate (n - 1) (0 : Byte)).length = n := by simp; omega
  generalize hp : (0x80 :: List.replicate (n - 1) (0 : Byte)) = p at hpl
  obtain ⟨r, h1, hr⟩ := updateMd5_holds h (d := ⟨n, (List.replicate (n + maxCipherBlocksize) (0 : Byte)).take 0 ++ p ++
    (List.replicate (n + maxCipherBlocksize) (0 : Byte)).drop (0 + p.length)⟩)
    (by show _ ≤ _; simp; omega)
  rw [h1, Res.ok_bind]
  have hbytes : (⟨n, (List.replicate (n + maxCipherBlocksize) (0 : Byte)).take 0 ++ p ++
    (List.replicate (n + maxCipherBlocksize) (0 : Byte)).drop (0 + p.length)⟩ : StringInfo).bytes = p := by
    show List.take n _ = p
    rw [← hpl]; exact take_wrN_zero
  rw [hbytes] at hr
  obtain ⟨a', t', hm', ha', ht', htake', hacc'⟩ := hr.split
  have ht56 : t'.length = 56 := by
    have := congrArg List.length hm'
    rw [hm, List.length_append, List.length_append, List.length_append, hpl] at this
    obtain ⟨q, hq⟩ := ha; obtain ⟨q', hq'⟩ := ha'
    omega
  -- the last block
  have hcount : s.high.toNat * 2 ^ 32 + s.low.toNat = 8 * m.length % 2 ^ 64 := h.count
  obtain ⟨w14, w15⟩ := le_word _ _ _ hcount s.low.isLt t' ht56
  have hwords : ∀ i < 16, (md5Words 14 r.message ++ [s.low, s.high]).getD i 0 = MD5.word (t' ++ le 8 (8 * m.length)) i := by
    intro i hi
    have hl14 : (md5Words 14 r.message).length = 14 := by simp [md5Words]
    by_cases hc : i < 14
    · rw [getD_append_lt (by omega), ← md5Words_take r.message (k := 56) (by decide), md5Words_getD _ _ hc, ← ht56, htake']
      unfold MD5.word
      rw [getD_append_lt (by omega), getD_append_lt (by omega), getD_append_lt (by omega), getD_append_lt (by omega)]
    · rcases (show i = 14 ∨ i = 15 by omega) with rfl | rfl
      · rw [w14, List.getD_eq_getElem?_getD, List.getElem?_append_right (by omega), hl14]
        simp
      · rw [w15, List.getD_eq_getElem?_getD, List.getElem?_append_right (by omega), hl14]
        simp
  have hfin : transformMd5 r.accumulator (md5Words 14 r.message ++ [s.low, s.high]) =
      md5Acc (md 64 MD5.compress MD5.init (pad 64 8 m (le 8 (8 * m.length)))) := by
    rw [hacc', md5_md, transformMd5_eq _ _ _ hwords]
    congr 1
    unfold pad
    rw [hz, hp, hm', List.append_assoc, md_append (by decide) ha',
      md_one (a := t' ++ le 8 (8 * m.length)) (by decide) (by simp [le, ht56])]
  rw [hfin]
  generalize hV : md 64 MD5.compress MD5.init (pad 64 8 m (le 8 (8 * m.length))) = V at hfin
  have hgen : ((md5Acc V).take 4).flatMap md5WordBytes = le 4 V.a.toNat ++ le 4 V.b.toNat ++ le 4 V.c.toNat ++ le 4 V.d.toNat := by
    simp [md5Acc, md5WordBytes_le]
  rw [hgen]
  have hgl : (le 4 V.a.toNat ++ le 4 V.b.toNat ++ le 4 V.c.toNat ++ le 4 V.d.toNat).length = 16 := by simp [le]
  have hdl := hr.digest
  rw [wrN_ok (by rw [hgl]; omega), Res.ok_bind]
  refine ⟨_, rfl, ?_, hr.message, ?_⟩
  · unfold md5Digest MD5.hash
    rw [hV]
    conv => lhs; rw [← hgl]
    exact take_wrN_zero
  · simp only [List.take_zero, List.nil_append, List.length_append, List.length_drop] at hgl ⊢; omega

theorem initializeMd5_holds {s : Md5Info} (h1 : s.message.length = 64 + maxCipherBlocksize)
    (h2 : s.digest.length = 16 + maxCipherBlocksize) : Md5Holds (initializeMd5 s) [] := by
  refine ⟨⟨[], [], rfl, ⟨0, rfl⟩, by decide, rfl, ?_⟩, h1, h2, by simp [initializeMd5]⟩
  rw [md_short (by decide)]; rfl

end Wizard

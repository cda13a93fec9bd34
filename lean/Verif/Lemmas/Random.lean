import Verif.Spec.Random
import Verif.Lemmas.Hmac
import Verif.Lemmas.Copy
import Verif.Lemmas.Base64
/-! The random generator refines a stream: the bytes left over, then one HMAC block per nonce. -/
namespace Wizard
open Spec Spec.Hash

/-! ### The nonce -/

theorem snoc_induction {α : Type} {P : List α → Prop} (nil : P []) (snoc : ∀ l b, P l → P (l ++ [b])) (l : List α) : P l := by
  rw [← List.reverse_reverse l]
  induction l.reverse with
  | nil => exact nil
  | cons b l ih => rw [List.reverse_cons]; exact snoc _ _ ih

theorem num_snoc (l : List Byte) (b : Byte) : num (l ++ [b]) = 256 * num l + b.toNat := by simp [num]

theorem num_lt (l : List Byte) : num l < 256 ^ l.length := by
  refine snoc_induction (P := fun l => num l < 256 ^ l.length) ?_ ?_ l
  · simp [num]
  · intro l b ih
    rw [num_snoc, List.length_append, List.length_singleton, Nat.pow_succ]
    have := b.isLt
    omega

theorem be_snoc (k a : Nat) (b : Byte) : be (k + 1) (256 * a + b.toNat) = be k a ++ [b] := by
  have := be_add k 1 a b.toNat (by have := b.isLt; omega)
  rw [Nat.pow_one] at this
  rw [Nat.mul_comm, this]
  congr 1
  simp [be]

theorem be_num (l : List Byte) : be l.length (num l) = l := by
  refine snoc_induction (P := fun l => be l.length (num l) = l) rfl ?_ l
  intro l b ih
  rw [num_snoc, List.length_append, List.length_singleton, be_snoc, ih]

theorem num_be (k v : Nat) (h : v < 256 ^ k) : num (be k v) = v := by
  have h1 := be_num (be k v)
  rw [be_length] at h1
  exact be_inj (by have := num_lt (be k v); rwa [be_length] at this) h h1

/-- The loop on the first `t.length + 1` bytes `a :: t` of the buffer. -/
theorem incrementNonceLoop_eq (a : Byte) (t : List Byte) : ∀ rest : List Byte,
    incrementNonceLoop t.length (a :: t ++ rest) =
      if num t + 1 < 256 ^ t.length then .ok (a :: be t.length (num t + 1) ++ rest) else .fatal := by
  refine snoc_induction (P := fun t => ∀ rest : List Byte, incrementNonceLoop t.length (a :: t ++ rest) =
      if num t + 1 < 256 ^ t.length then .ok (a :: be t.length (num t + 1) ++ rest) else .fatal) ?_ ?_ t
  · intro rest; simp [incrementNonceLoop, num]
  · intro t b ih rest
    rw [List.length_append, List.length_singleton, incrementNonceLoop]
    have e : a :: (t ++ [b]) ++ rest = (a :: t) ++ b :: rest := by simp
    rw [e, rd_mid' (a :: t) rest b _ (by simp), Res.ok_bind, wr_mid (a :: t) rest b (b + 1) _ (by simp), Res.ok_bind,
      num_snoc, Nat.pow_succ]
    by_cases hb : b + 1 ≠ 0
    · have hb' : b.toNat ≠ 255 := fun h => hb (by
        have : b = 255#8 := BitVec.eq_of_toNat_eq h
        subst this; rfl)
      have hlt := b.isLt
      have hn := num_lt t
      have hv : (b + 1).toNat = b.toNat + 1 := by
        rw [BitVec.toNat_add]; show (b.toNat + 1) % 256 = _; omega
      rw [if_pos hb, if_pos (by omega), Nat.add_assoc, ← hv, be_snoc, be_num]
      simp
    · have hb' : b.toNat = 255 := by
        have : b + 1 = 0 := by simpa using hb
        have := congrArg BitVec.toNat this
        rw [BitVec.toNat_add] at this
        have h2 : (b.toNat + 1) % 256 = 0 := this
        have := b.isLt
        omega
      have hz : b + 1 = 0 := by simpa using hb
      rw [if_neg hb, hz]
      have e : (a :: t) ++ (0 : Byte) :: rest = a :: t ++ ((0 : Byte) :: rest) := rfl
      rw [e, ih, hb']
      have h3 : 256 * num t + 255 + 1 = 256 * (num t + 1) + (0 : Byte).toNat := by
        show _ = _ + 0; omega
      by_cases hc : num t + 1 < 256 ^ t.length
      · rw [if_pos hc, if_pos (by omega), h3, be_snoc]; simp
      · rw [if_neg hc, if_neg (by omega)]

theorem nonceNext_length {c c' : List Byte} (h : nonceNext c = some c') : c'.length = c.length := by
  cases c with
  | nil => cases h
  | cons b t =>
    rw [nonceNext] at h
    split at h
    · cases h; simp [be_length]
    · cases h

theorem incrementRandomNonce_spec {n : StringInfo} (hw : n.WF) (hl : 0 < n.length) :
    match nonceNext n.bytes with
    | some c => ∃ r, incrementRandomNonce n = .ok r ∧ r.WF ∧ r.length = n.length ∧ r.bytes = c
    | none => incrementRandomNonce n = .fatal := by
  have hb := StringInfo.bytes_length hw
  have hd : n.datum = n.bytes ++ n.datum.drop n.length := (List.take_append_drop _ _).symm
  unfold incrementRandomNonce
  cases hc : n.bytes with
  | nil => rw [hc] at hb; simp at hb; omega
  | cons a t =>
    have ht : n.length = t.length + 1 := by rw [← hb, hc]; rfl
    rw [hd, hc, ht, Nat.add_sub_cancel, incrementNonceLoop_eq, nonceNext]
    have hwl : n.length + maxCipherBlocksize ≤ n.datum.length := hw
    by_cases hq : num t + 1 < 256 ^ t.length
    · rw [if_pos hq, if_pos hq, Res.ok_bind]
      refine ⟨_, rfl, ?_, rfl, ?_⟩
      · show _ ≤ (_ : List Byte).length
        simp [be_length]; omega
      · show List.take _ _ = _
        rw [List.take_left' (by simp [be_length])]
    · rw [if_neg hq, if_neg hq]; rfl

/-! ### One block -/

theorem hashSize_pos {t : HashType} (ht : HashType.Supported t) : 8 ≤ hashSize t := by
  cases t <;> first | (exact absurd rfl ht.1) | (exact absurd rfl ht.2) | decide

/-- The function of the nonce that makes the blocks, for a key whose padded form is `p`. -/
def genFn (lsb : Bool) (t : HashType) (p c : List Byte) : List Byte :=
  hashFn lsb t (p.map (· ^^^ 0x5c) ++ hashFn lsb t (p.map (· ^^^ 0x36) ++ c))

/-- The generator has the key `p`, the nonce `c` and the bytes `left` left over. -/
structure RandomHolds (lsb : Bool) (t : HashType) (p c left : List Byte) (r : RandomInfo) : Prop where
  hmac : HmacKeyed lsb t p r.hmac
  nonceWF : r.nonce.WF
  nonceLen : r.nonce.length = 2 * hashSize t
  nonce : r.nonce.bytes = c
  resWF : r.reservoir.WF
  resLen : r.reservoir.length = hashSize t
  left : (r.i = 0 ∧ left = []) ∨ (0 < r.i ∧ r.i < hashSize t ∧ left = r.reservoir.bytes.drop r.i)

theorem randomBlock_spec {lsb : Bool} {t : HashType} (ht : HashType.Supported t) {fuel : Nat} (hf : 128 < fuel)
    {p c left : List Byte} {r : RandomInfo} (h : RandomHolds lsb t p c left r) :
    match nonceNext c with
    | some c' => ∃ r', randomBlock lsb fuel r = .ok r' ∧ RandomHolds lsb t p c' left r' ∧
        r'.hmac.digest.bytes = genFn lsb t p c ∧ r'.used = r.used ++ [c] ∧ r'.i = r.i
    | none => randomBlock lsb fuel r = .fatal := by
  have hs := hashSize_le t
  have hp := hashSize_pos ht
  obtain ⟨k1, a1, a2⟩ := resetHmac_holds (fuel := fuel) h.hmac hf
  obtain ⟨k2, b1, b2⟩ := updateHmac_holds a2 h.nonceWF (by rw [h.nonceLen]; exact small_lt_updateLimit t (by omega))
    (by rw [h.nonceLen]; omega : r.nonce.length < fuel)
  obtain ⟨k3, c1, c2, c3⟩ := finalizeHmac_holds b2 hf
  have d := incrementRandomNonce_spec h.nonceWF (by rw [h.nonceLen]; omega)
  rw [h.nonce] at d
  unfold randomBlock
  rw [a1, Res.ok_bind, b1, Res.ok_bind, c1, Res.ok_bind]
  cases hn : nonceNext c with
  | none =>
    rw [hn] at d
    simp only [] at d ⊢
    rw [d]; rfl
  | some c' =>
    rw [hn] at d
    obtain ⟨n, e1, e2, e3, e4⟩ := d
    simp only []
    rw [e1, Res.ok_bind]
    refine ⟨_, rfl, ⟨c2, e2, by rw [e3, h.nonceLen], e4, h.resWF, h.resLen, h.left⟩, ?_, ?_, rfl⟩
    · show k3.digest.bytes = _
      rw [c3, List.nil_append, h.nonce]; rfl
    · show _ ++ [r.nonce.bytes] = _
      rw [h.nonce]

theorem genFn_length_of {lsb : Bool} {t : HashType} {p c left x : List Byte} {r : RandomInfo} (h : RandomHolds lsb t p c left r)
    (e : r.hmac.digest.bytes = x) : x.length = hashSize t := by
  rw [← e, StringInfo.bytes_length h.hmac.wf, h.hmac.size]

/-! ### The three parts of a request -/

theorem randomDrain_spec {lsb : Bool} {t : HashType} {p c : List Byte} : ∀ (n : Nat) {left : List Byte} {r : RandomInfo} (out : List Byte),
    RandomHolds lsb t p c left r →
    ∃ r', randomDrain (hashSize t) n r out = .ok (n - left.length, r', out ++ left.take n) ∧
      RandomHolds lsb t p c (left.drop n) r' ∧ r'.used = r.used := by
  intro n
  induction n with
  | zero => intro left r out h; exact ⟨r, by simp [randomDrain], by simpa using h, rfl⟩
  | succ n ih =>
    intro left r out h
    have hrl := StringInfo.bytes_length h.resWF
    rw [h.resLen] at hrl
    rw [randomDrain]
    rcases h.left with ⟨hi, hl⟩ | ⟨hi, hi2, hl⟩
    · rw [if_neg (by omega), hl]
      exact ⟨r, by simp, by simpa [hl] using h, rfl⟩
    · rw [if_pos (by omega)]
      have hb : rd r.reservoir.datum r.i = .ok (r.reservoir.bytes[r.i]'(by omega)) := by
        have hd : r.reservoir.datum = r.reservoir.bytes ++ r.reservoir.datum.drop r.reservoir.length :=
          (List.take_append_drop _ _).symm
        rw [hd]; exact rd_lt _
      rw [hb, Res.ok_bind]
      have hcons : left = r.reservoir.bytes[r.i]'(by omega) :: r.reservoir.bytes.drop (r.i + 1) := by
        rw [hl]; exact List.drop_eq_getElem_cons (by omega)
      generalize r.reservoir.bytes[r.i]'(by omega) = b at *
      have hh : RandomHolds lsb t p c (r.reservoir.bytes.drop (r.i + 1))
          { r with i := if r.i + 1 = hashSize t then 0 else r.i + 1 } := by
        refine ⟨h.hmac, h.nonceWF, h.nonceLen, h.nonce, h.resWF, h.resLen, ?_⟩
        by_cases he : r.i + 1 = hashSize t
        · left; simp only [if_pos he, true_and]
          exact List.drop_of_length_le (by omega)
        · right; simp only [if_neg he]
          exact ⟨by omega, by omega, trivial⟩
      obtain ⟨r', e1, e2, e3⟩ := ih (out ++ [b]) hh
      refine ⟨r', ?_, ?_, e3⟩
      · rw [e1, hcons]; simp
      · rw [hcons]; exact e2

theorem randomWhole_spec {lsb : Bool} {t : HashType} (ht : HashType.Supported t) {fuel : Nat} (hf : 128 < fuel) {p : List Byte} :
    ∀ (k n turns : Nat) {c : List Byte} {r : RandomInfo} (out : List Byte), n / hashSize t = k → k < turns → RandomHolds lsb t p c [] r →
    match genBlocks (genFn lsb t p) k c with
    | some (bs, c') => ∃ r', randomWhole lsb fuel (hashSize t) turns n r out = .ok (n % hashSize t, r', out ++ bs) ∧
        RandomHolds lsb t p c' [] r' ∧ r'.used = r.used ++ genNonces k c ∧ bs.length = k * hashSize t
    | none => randomWhole lsb fuel (hashSize t) turns n r out = .fatal := by
  have hp := hashSize_pos ht
  intro k
  induction k with
  | zero =>
    intro n turns c r out hk hturns h
    have hlt : n < hashSize t := by rcases Nat.div_eq_zero_iff.mp hk with h | h <;> omega
    obtain ⟨turns, rfl⟩ : ∃ u, turns = u + 1 := ⟨turns - 1, by omega⟩
    rw [genBlocks, randomWhole, if_neg (by omega), Nat.mod_eq_of_lt hlt]
    exact ⟨r, by simp, h, by simp [genNonces], by simp⟩
  | succ k ih =>
    intro n turns c r out hk hturns h
    obtain ⟨turns, rfl⟩ : ∃ u, turns = u + 1 := ⟨turns - 1, by omega⟩
    have hge : hashSize t ≤ n := by
      rcases Nat.lt_or_ge n (hashSize t) with h | h
      · rw [Nat.div_eq_of_lt h] at hk; omega
      · exact h
    have hb := randomBlock_spec ht hf h
    rw [randomWhole, if_pos hge, genBlocks, genNonces]
    cases hn : nonceNext c with
    | none =>
      rw [hn] at hb
      simp only [] at hb
      rw [hb]; rfl
    | some c1 =>
      rw [hn] at hb
      obtain ⟨r1, e1, e2, e3, e4, e5⟩ := hb
      have hl := genFn_length_of e2 e3
      rw [e1, Res.ok_bind, rdN_ok (by have : _ ≤ _ := e2.hmac.wf; rw [e2.hmac.size] at this; omega), Res.ok_bind, List.drop_zero]
      have e6 : r1.hmac.digest.datum.take (hashSize t) = genFn lsb t p c := by
        rw [← e3, StringInfo.bytes, e2.hmac.size]
      rw [e6]
      have hdiv : (n - hashSize t) / hashSize t = k := by
        have := Nat.div_eq_sub_div (by omega) hge
        omega
      have hi := ih (n - hashSize t) turns (out ++ genFn lsb t p c) hdiv (by omega) e2
      show match (do let r ← genBlocks (genFn lsb t p) k c1; some (genFn lsb t p c ++ r.1, r.2)) with | some (bs, c') => _ | none => _
      cases hg : genBlocks (genFn lsb t p) k c1 with
      | none => rw [hg] at hi; exact hi
      | some x =>
        rw [hg] at hi
        obtain ⟨r2, f1, f2, f3, f4⟩ := hi
        refine ⟨r2, ?_, f2, ?_, ?_⟩
        · rw [f1, List.append_assoc, ← Nat.mod_eq_sub_mod hge]
        · rw [f3, e4]; simp
        · simp only [List.length_append, hl, f4, Nat.succ_mul]; omega

theorem randomLast_spec {lsb : Bool} {t : HashType} (ht : HashType.Supported t) {fuel : Nat} (hf : 128 < fuel) {p c : List Byte}
    {n : Nat} (hn : n < hashSize t) {r : RandomInfo} (out : List Byte) (h : RandomHolds lsb t p c [] r) :
    match genBlocks (genFn lsb t p) (if n = 0 then 0 else 1) c with
    | some (bs, c') => ∃ r', randomLast lsb fuel n r out = .ok (out ++ bs.take n, r') ∧ RandomHolds lsb t p c' (bs.drop n) r' ∧
        r'.used = r.used ++ genNonces (if n = 0 then 0 else 1) c ∧ bs.length = (if n = 0 then 0 else 1) * hashSize t
    | none => randomLast lsb fuel n r out = .fatal := by
  by_cases h0 : n = 0
  · rw [if_pos h0, genBlocks]
    unfold randomLast
    rw [if_neg (by omega)]
    exact ⟨r, by simp, by simpa using h, by simp [genNonces], by simp⟩
  · rw [if_neg h0]
    unfold randomLast
    rw [if_pos h0]
    have hb := randomBlock_spec ht hf h
    simp only [genBlocks, genNonces]
    cases hnn : nonceNext c with
    | none =>
      rw [hnn] at hb
      simp only [] at hb
      rw [hb]; rfl
    | some c1 =>
      rw [hnn] at hb
      obtain ⟨r1, e1, e2, e3, e4, e5⟩ := hb
      have hl := genFn_length_of e2 e3
      obtain ⟨v, g1, g2, g3, g4⟩ := setStringInfo_full e2.resWF e2.hmac.wf (by rw [e2.resLen, e2.hmac.size]; exact Nat.le_refl _)
      rw [e2.resLen, e2.hmac.size, Nat.sub_self, List.replicate_zero, List.append_nil, e3] at g4
      have hvl : v.length + maxCipherBlocksize ≤ v.datum.length := g3
      rw [e2.resLen] at g2
      rw [e1, Res.ok_bind, g1, Res.ok_bind, rdN_ok (by omega), Res.ok_bind, List.drop_zero]
      have e6 : v.datum.take n = (genFn lsb t p c).take n := by
        rw [← g4, StringInfo.bytes, g2, List.take_take, Nat.min_eq_left (by omega)]
      show ∃ r', _
      refine ⟨{ r1 with reservoir := v, i := n }, ?_, ⟨e2.hmac, e2.nonceWF, e2.nonceLen, e2.nonce, g3, g2, Or.inr ⟨Nat.pos_of_ne_zero h0, hn, ?_⟩⟩, ?_, ?_⟩
      · rw [e6]; simp
      · rw [g4]; simp
      · exact e4
      · simp [hl]

/-! ### A request -/

/-- The number of blocks made for a request of `n` bytes when `l` bytes are left over and blocks have `d` bytes. -/
def blocksFor (d n l : Nat) : Nat := (n - l + d - 1) / d

theorem blocksFor_zero {d n l : Nat} (hd : 0 < d) (h : n ≤ l) : blocksFor d n l = 0 := by
  unfold blocksFor; exact Nat.div_eq_of_lt (by omega)

theorem blocksFor_eq {d n l : Nat} (hd : 0 < d) :
    blocksFor d n l = (n - l) / d + if (n - l) % d = 0 then 0 else 1 := by
  unfold blocksFor
  generalize n - l = x
  have h1 := Nat.div_add_mod x d
  have h2 := Nat.mod_lt x hd
  generalize x / d = q at *
  generalize x % d = r at *
  subst h1
  by_cases h : r = 0
  · rw [if_pos h, h]
    rw [show d * q + 0 + d - 1 = d * q + (d - 1) by omega, Nat.mul_add_div hd, Nat.div_eq_of_lt (by omega)]
  · rw [if_neg h, show d * q + r + d - 1 = d * q + (d + (r - 1)) by omega, Nat.mul_add_div hd, Nat.add_div_left _ hd,
      Nat.div_eq_of_lt (by omega)]

/-- Enough blocks are made, and one fewer would not do. -/
theorem blocksFor_spec {d n l : Nat} (hd : 0 < d) :
    n ≤ l + blocksFor d n l * d ∧ (∀ k, n ≤ l + k * d → blocksFor d n l ≤ k) := by
  rw [blocksFor_eq hd]
  have h1 := Nat.div_add_mod (n - l) d
  have h2 := Nat.mod_lt (n - l) hd
  constructor
  · rw [Nat.add_mul, Nat.mul_comm]
    split <;> omega
  · intro k hk
    have h3 : n - l ≤ k * d := by omega
    rcases Nat.lt_or_ge k ((n - l) / d + if (n - l) % d = 0 then 0 else 1) with h | h
    · exfalso
      split at h
      · have : (k + 1) * d ≤ (n - l) / d * d := Nat.mul_le_mul_right _ (by omega)
        rw [Nat.add_mul, Nat.one_mul, Nat.mul_comm _ d] at this
        rw [Nat.mul_comm ((n-l)/d) d] at this
        rw [Nat.mul_comm k d] at h3
        omega
      · have : k * d ≤ (n - l) / d * d := Nat.mul_le_mul_right _ (by omega)
        rw [Nat.mul_comm ((n-l)/d) d] at this
        omega
    · exact h

theorem blocksFor_add {d n m l : Nat} (hd : 0 < d) :
    blocksFor d (n + m) l = blocksFor d n l + blocksFor d m (l + blocksFor d n l * d - n) := by
  obtain ⟨a1, a2⟩ := blocksFor_spec (n := n) (l := l) hd
  obtain ⟨b1, b2⟩ := blocksFor_spec (n := m) (l := l + blocksFor d n l * d - n) hd
  obtain ⟨c1, c2⟩ := blocksFor_spec (n := n + m) (l := l) hd
  apply Nat.le_antisymm
  · apply c2; rw [Nat.add_mul]; omega
  · have h : blocksFor d n l ≤ blocksFor d (n + m) l := a2 _ (by omega)
    have h2 := b2 (blocksFor d (n + m) l - blocksFor d n l) (by
      rw [Nat.sub_mul]
      have := Nat.mul_le_mul_right d h
      omega)
    omega

theorem genBlocks_add (H : List Byte → List Byte) (a b : Nat) : ∀ c, genBlocks H (a + b) c =
    (genBlocks H a c).bind fun x => (genBlocks H b x.2).bind fun y => some (x.1 ++ y.1, y.2) := by
  induction a with
  | zero => intro c; simp only [Nat.zero_add, genBlocks, Option.bind_some, List.nil_append]; cases genBlocks H b c <;> rfl
  | succ a ih =>
    intro c
    rw [Nat.succ_add, genBlocks, genBlocks]
    cases hn : nonceNext c with
    | none => rfl
    | some c1 =>
      show (genBlocks H (a + b) c1).bind _ = Option.bind ((genBlocks H a c1).bind _) _
      rw [ih]
      cases genBlocks H a c1 with
      | none => rfl
      | some x =>
        simp only [Option.bind_some]
        cases genBlocks H b x.2 with
        | none => rfl
        | some y => simp

theorem genNonces_add (H : List Byte → List Byte) (a b : Nat) : ∀ {c bs c'}, genBlocks H a c = some (bs, c') →
    genNonces (a + b) c = genNonces a c ++ genNonces b c' := by
  induction a with
  | zero => intro c bs c' h; simp only [genBlocks, Option.some.injEq, Prod.mk.injEq] at h; simp [genNonces, h.2]
  | succ a ih =>
    intro c bs c' h
    rw [genBlocks] at h
    rw [Nat.succ_add, genNonces, genNonces]
    cases hn : nonceNext c with
    | none => rw [hn] at h; cases h
    | some c1 =>
      rw [hn] at h
      replace h : (genBlocks H a c1).bind (fun r => some (H c ++ r.1, r.2)) = some (bs, c') := h
      cases hg : genBlocks H a c1 with
      | none => rw [hg] at h; cases h
      | some x =>
        rw [hg] at h
        simp only [Option.bind_some, Option.some.injEq, Prod.mk.injEq] at h
        simp only []
        rw [ih (bs := x.1) (c' := c') (by rw [hg, ← h.2])]
        rfl

theorem setRandomKey_spec {lsb : Bool} {t : HashType} (ht : HashType.Supported t) {fuel : Nat} (hf : 128 < fuel)
    {p c left : List Byte} {r : RandomInfo} (h : RandomHolds lsb t p c left r) (n : Nat) :
    match genBlocks (genFn lsb t p) (blocksFor (hashSize t) n left.length) c with
    | some (bs, c') => ∃ r', setRandomKey lsb fuel r n = .ok ((left ++ bs).take n, r') ∧
        RandomHolds lsb t p c' ((left ++ bs).drop n) r' ∧
        r'.used = r.used ++ genNonces (blocksFor (hashSize t) n left.length) c ∧
        bs.length = blocksFor (hashSize t) n left.length * hashSize t
    | none => setRandomKey lsb fuel r n = .fatal := by
  have hp := hashSize_pos ht
  unfold setRandomKey
  rw [handle_digestsize h.hmac.hash.shape]
  obtain ⟨r1, a1, a2, a3⟩ := randomDrain_spec n [] h
  simp only [a1, Res.ok_bind, List.nil_append]
  rcases Nat.lt_or_ge n left.length with hlt | hge
  · rw [blocksFor_zero (by omega) (by omega), genBlocks, show n - left.length = 0 by omega]
    rw [randomWhole, if_neg (by omega), Res.ok_bind]
    unfold randomLast
    rw [if_neg (by simp)]
    exact ⟨r1, by simp, by simpa using a2, by simp [genNonces, a3], by simp⟩
  · rw [blocksFor_eq (by omega), genBlocks_add]
    rw [List.drop_of_length_le hge] at a2
    rw [List.take_of_length_le hge]
    have hd : (n - left.length) / hashSize t < n + 1 := by
      have := Nat.div_le_self (n - left.length) (hashSize t); omega
    have b := randomWhole_spec ht hf ((n - left.length) / hashSize t) (n - left.length) (n + 1) left rfl hd a2
    cases hg : genBlocks (genFn lsb t p) ((n - left.length) / hashSize t) c with
    | none => rw [hg] at b; simp only [] at b; rw [b]; rfl
    | some x =>
      rw [hg] at b
      obtain ⟨r2, b1, b2, b3, b4⟩ := b
      simp only [Option.bind_some, b1, Res.ok_bind]
      have hm := Nat.mod_lt (n - left.length) (show 0 < hashSize t by omega)
      have d := randomLast_spec ht hf hm (left ++ x.1) b2
      cases hg2 : genBlocks (genFn lsb t p) (if (n - left.length) % hashSize t = 0 then 0 else 1) x.2 with
      | none => rw [hg2] at d; exact d
      | some y =>
        rw [hg2] at d
        obtain ⟨r3, d1, d2, d3, d4⟩ := d
        have hn : n = left.length + x.1.length + (n - left.length) % hashSize t := by
          have := Nat.div_add_mod (n - left.length) (hashSize t)
          rw [b4, Nat.mul_comm]
          omega
        have e1 : (left ++ (x.1 ++ y.1)).take n = left ++ x.1 ++ y.1.take ((n - left.length) % hashSize t) := by
          rw [← List.append_assoc, List.take_append, List.take_of_length_le (by simp; omega)]
          congr 2; rw [List.length_append]; omega
        have e2 : (left ++ (x.1 ++ y.1)).drop n = y.1.drop ((n - left.length) % hashSize t) := by
          rw [← List.append_assoc, List.drop_append, List.drop_of_length_le (by simp; omega), List.nil_append]
          congr 1; rw [List.length_append]; omega
        refine ⟨r3, by rw [d1, e1], by rw [e2]; exact d2, ?_, ?_⟩
        · rw [d3, b3, a3, genNonces_add _ _ _ (show _ = some (x.1, x.2) from hg), List.append_assoc]
        · rw [List.length_append, b4, d4, ← Nat.add_mul]

/-- Any sequence of requests is one request of their sum. -/
theorem randomKeys_spec {lsb : Bool} {t : HashType} (ht : HashType.Supported t) {fuel : Nat} (hf : 128 < fuel) {p : List Byte} :
    ∀ (ns : List Nat) {c left : List Byte} {r : RandomInfo}, RandomHolds lsb t p c left r →
    match genBlocks (genFn lsb t p) (blocksFor (hashSize t) ns.sum left.length) c with
    | some (bs, c') => ∃ r', randomKeys lsb fuel r ns = .ok ((left ++ bs).take ns.sum, r') ∧
        RandomHolds lsb t p c' ((left ++ bs).drop ns.sum) r' ∧
        r'.used = r.used ++ genNonces (blocksFor (hashSize t) ns.sum left.length) c
    | none => randomKeys lsb fuel r ns = .fatal := by
  have hp := hashSize_pos ht
  intro ns
  induction ns with
  | nil =>
    intro c left r h
    rw [List.sum_nil, blocksFor_zero (by omega) (by omega), genBlocks]
    exact ⟨r, by simp [randomKeys], by simpa using h, by simp [genNonces]⟩
  | cons n ns ih =>
    intro c left r h
    rw [List.sum_cons, blocksFor_add (by omega), genBlocks_add, randomKeys]
    have a := setRandomKey_spec ht hf h n
    cases hg : genBlocks (genFn lsb t p) (blocksFor (hashSize t) n left.length) c with
    | none => rw [hg] at a; simp only [] at a; rw [a]; rfl
    | some x =>
      rw [hg] at a
      obtain ⟨r1, a1, a2, a3, a4⟩ := a
      have b := ih a2
      have hl : ((left ++ x.1).drop n).length = left.length + blocksFor (hashSize t) n left.length * hashSize t - n := by
        rw [List.length_drop, List.length_append, a4]
      rw [hl] at b
      rw [a1, Res.ok_bind]
      simp only [Option.bind_some]
      cases hg2 : genBlocks (genFn lsb t p) (blocksFor (hashSize t) ns.sum
          (left.length + blocksFor (hashSize t) n left.length * hashSize t - n)) x.2 with
      | none => rw [hg2] at b; simp only [] at b; rw [b]; rfl
      | some y =>
        rw [hg2] at b
        obtain ⟨r2, b1, b2, b3⟩ := b
        have hle := (blocksFor_spec (d := hashSize t) (n := n) (l := left.length) (by omega)).1
        have hle2 : n ≤ (left ++ x.1).length := by rw [List.length_append, a4]; exact hle
        have e : (left ++ x.1).drop n ++ y.1 = (left ++ (x.1 ++ y.1)).drop n := by
          rw [← List.append_assoc, List.drop_append_of_le_length hle2]
        have e' : (left ++ x.1).take n = (left ++ (x.1 ++ y.1)).take n := by
          rw [← List.append_assoc, List.take_append_of_le_length hle2]
        refine ⟨r2, ?_, ?_, ?_⟩
        · rw [b1, Res.ok_bind, e, e', ← List.take_add]
        · rw [e, List.drop_drop] at b2; exact b2
        · rw [b3, a3, genNonces_add _ _ _ (show _ = some (x.1, x.2) from hg), List.append_assoc]

/-! ### The blocks in closed form -/

theorem be_cons_zero {m j : Nat} (h : j < 256 ^ m) : be (m + 1) j = 0 :: be m j := by
  have := be_add 1 m 0 j h
  rw [Nat.zero_mul, Nat.zero_add, Nat.add_comm] at this
  rw [this]; rfl

theorem nonceNext_be {m j : Nat} (h : j < 256 ^ m) :
    nonceNext (be (m + 1) j) = if j + 1 < 256 ^ m then some (be (m + 1) (j + 1)) else none := by
  rw [be_cons_zero h, nonceNext, be_length, num_be _ _ h]
  split
  · rename_i h2; rw [be_cons_zero h2]
  · rfl

theorem genBlocks_be (H : List Byte → List Byte) (m : Nat) : ∀ (k j : Nat), j < 256 ^ m →
    genBlocks H k (be (m + 1) j) = if j + k < 256 ^ m then
      some ((List.range' j k).flatMap (fun i => H (be (m + 1) i)), be (m + 1) (j + k)) else none := by
  intro k
  induction k with
  | zero => intro j h; rw [genBlocks, if_pos (by omega)]; simp
  | succ k ih =>
    intro j h
    rw [genBlocks, nonceNext_be h]
    by_cases h1 : j + 1 < 256 ^ m
    · rw [if_pos h1]
      show (genBlocks H k (be (m + 1) (j + 1))).bind _ = _
      rw [ih _ h1]
      by_cases h2 : j + (k + 1) < 256 ^ m
      · rw [if_pos (by omega), if_pos h2, Option.bind_some, List.range'_succ, List.flatMap_cons,
          show j + 1 + k = j + (k + 1) by omega]
      · rw [if_neg (by omega), if_neg h2]; rfl
    · rw [if_neg h1, if_neg (by omega)]; rfl

theorem genNonces_be (m : Nat) : ∀ (k j : Nat), j + k < 256 ^ m →
    genNonces k (be (m + 1) j) = (List.range' j k).map (be (m + 1)) := by
  intro k
  induction k with
  | zero => intro j h; rfl
  | succ k ih =>
    intro j h
    rw [genNonces, nonceNext_be (by omega), if_pos (by omega)]
    simp only []
    rw [ih _ (by omega), List.range'_succ, List.map_cons]

/-! ### Seeding -/

theorem initializeHmac_digest {lsb : Bool} {fuel : Nat} {k k' : HmacInfo} {key : StringInfo}
    (h : initializeHmac lsb fuel k key = .ok k') : k'.digest = k.digest := by
  unfold initializeHmac at h
  cases h1 : hmacKey lsb fuel k key with
  | ub => rw [h1] at h; cases h
  | fatal => rw [h1] at h; cases h
  | ok x =>
    rw [h1, Res.ok_bind] at h
    cases h2 : setStringInfo k.finalNonce x.1 with
    | ub => rw [h2] at h; cases h
    | fatal => rw [h2] at h; cases h
    | ok f =>
      rw [h2, Res.ok_bind] at h
      cases h3 : xorStringInfo x.1 0x36 with
      | ub => rw [h3] at h; cases h
      | fatal => rw [h3] at h; cases h
      | ok i =>
        rw [h3, Res.ok_bind] at h
        cases h4 : xorStringInfo f 0x5c with
        | ub => rw [h4] at h; cases h
        | fatal => rw [h4] at h; cases h
        | ok f2 =>
          rw [h4, Res.ok_bind] at h
          unfold resetHmac at h
          cases h5 : initializeHash lsb x.2 with
          | ub => simp only [h5] at h; cases h
          | fatal => simp only [h5] at h; cases h
          | ok y =>
            simp only [h5, Res.ok_bind] at h
            cases h6 : updateHash lsb fuel y.2 i with
            | ub => simp only [h6] at h; cases h
            | fatal => simp only [h6] at h; cases h
            | ok z => simp only [h6, Res.ok_bind] at h; cases h; rfl

theorem bytes_acquired (n : Nat) : (⟨n, List.replicate (n + maxCipherBlocksize) 0⟩ : StringInfo).bytes = List.replicate n 0 := by
  show List.take n (List.replicate _ _) = _
  rw [List.take_replicate]; congr 1; omega

theorem replicate_be (n : Nat) : List.replicate n (0 : Byte) = be n 0 := by
  induction n with
  | zero => rfl
  | succ n ih => rw [be_cons_zero (Nat.pow_pos (by omega)), ← ih]; rfl

theorem setStringInfo_zero {s src : StringInfo} (hs : s.WF) (hsrc : src.WF) (hz : src.bytes = List.replicate src.length 0) :
    ∃ r, setStringInfo s src = .ok r ∧ r.length = s.length ∧ r.WF ∧ r.bytes = List.replicate s.length 0 := by
  obtain ⟨r, h1, h2, h3, h4, _⟩ := setStringInfo_spec s src hs hsrc
  refine ⟨r, h1, h2, ?_, ?_⟩
  · show r.length + _ ≤ r.datum.length
    rw [h2, h3]; exact hs
  · rw [h4, hz, List.take_replicate, List.replicate_append_replicate]
    congr 1; omega

theorem acquireHmac_digest {lsb : Bool} {junk : HashJunk} {t : HashType} (ht : HashType.Supported t) {k : HmacInfo}
    (h : acquireHmac lsb junk t = .ok k) : k.digest.bytes = List.replicate (hashSize t) 0 := by
  obtain ⟨x, h1, h2⟩ := acquireHash_shape lsb junk t ht
  have a := hashSize_le t
  have b := blockSize_le t
  unfold acquireHmac at h
  rw [h1, Res.ok_bind, handle_digestsize h2.shape, handle_blocksize h2.shape, acquireStringInfo_small (by omega), Res.ok_bind,
    acquireStringInfo_small (by omega), Res.ok_bind, Res.ok_bind] at h
  cases h
  exact bytes_acquired _

/-- The generator after seeding: its key is the second entropy, its nonce is zero and its reservoir is zero, whatever the first
entropy was. -/
theorem seed_holds (lsb : Bool) (junk : HashJunk) (mem : Nat → Byte) {t : HashType} (ht : HashType.Supported t) {fuel : Nat}
    (hf : 128 < fuel) {e1 e2 : StringInfo} (h1 : UpdatesOK t fuel [e1]) (h2 : UpdatesOK t fuel [e2]) :
    ∃ r0 r, newRandom lsb junk t = .ok r0 ∧ seedRandom lsb fuel mem r0 e1 e2 = .ok r ∧
      RandomHolds lsb t (hmacPad (hashFn lsb t) (blockSize t) e2.bytes) (be (2 * hashSize t) 0) [] r ∧ r.used = [] ∧
      r.reservoir.bytes = List.replicate (hashSize t) 0 := by
  have hs := hashSize_le t
  obtain ⟨k0, a1, a2⟩ := acquireHmac_shape lsb junk t ht
  have az := acquireHmac_digest ht a1
  obtain ⟨w1, l1, f1⟩ := h1 e1 (List.mem_singleton.mpr rfl)
  obtain ⟨w2, l2, f2⟩ := h2 e2 (List.mem_singleton.mpr rfl)
  obtain ⟨k1, b1, b2⟩ := initializeHmac_holds a2 w1 l1 f1 hf
  have bz := initializeHmac_digest b1
  obtain ⟨k2, c1, c2⟩ := initializeHmac_holds b2.keyed.toHmacShape w2 l2 f2 hf
  have cz := initializeHmac_digest c1
  have hn1 : (⟨2 * hashSize t, List.replicate (2 * hashSize t + maxCipherBlocksize) 0⟩ : StringInfo).WF := wf_replicate _ _
  have hv1 : (⟨hashSize t, List.replicate (hashSize t + maxCipherBlocksize) 0⟩ : StringInfo).WF := wf_replicate _ _
  obtain ⟨n0, d1, d2, d3, d4⟩ := resetStringInfo_ok _ hn1
  obtain ⟨v0, g1, g2, g3, g4⟩ := resetStringInfo_ok _ hv1
  simp only [] at d2 g2
  refine ⟨⟨k0, n0, v0, 0, 0x76e15d3efefdcbbf, 0xc5004e441c522fb3, 0x77710069854ee241, 0x39109bb02acbe635, []⟩, ?_⟩
  have hnew : newRandom lsb junk t = .ok ⟨k0, n0, v0, 0, 0x76e15d3efefdcbbf, 0xc5004e441c522fb3, 0x77710069854ee241, 0x39109bb02acbe635, []⟩ := by
    unfold newRandom
    rw [a1, Res.ok_bind, handle_digestsize a2.hash.shape, acquireStringInfo_small (by omega), Res.ok_bind, d1, Res.ok_bind,
      acquireStringInfo_small (by omega), Res.ok_bind, g1, Res.ok_bind]
  have hsl : setStringInfoLength e1 ((hashSize t + 1) / 2) mem = .ok ⟨(hashSize t + 1) / 2,
      reallocMem e1.datum ((hashSize t + 1) / 2 + maxCipherBlocksize) mem⟩ := by
    unfold setStringInfoLength
    rw [if_pos (by unfold sizeMax maxCipherBlocksize; omega)]
  have hew : (⟨(hashSize t + 1) / 2, reallocMem e1.datum ((hashSize t + 1) / 2 + maxCipherBlocksize) mem⟩ : StringInfo).WF := by
    show _ ≤ _
    simp
  obtain ⟨e, p1, p2, p3, p4⟩ := setStringInfo_zero hew b2.wf (by rw [bz, az, ← bz, b2.size])
  obtain ⟨n, q1, q2, q3, q4⟩ := setStringInfo_zero d3 p3 (by rw [p4, p2])
  obtain ⟨v, s1, s2, s3, s4⟩ := setStringInfo_zero g3 c2.wf (by rw [cz, bz, az, ← bz, ← cz, c2.size])
  refine ⟨{ (⟨k0, n0, v0, 0, 0x76e15d3efefdcbbf, 0xc5004e441c522fb3, 0x77710069854ee241, 0x39109bb02acbe635, []⟩ : RandomInfo) with hmac := k2, nonce := n, reservoir := v }, hnew, ?_, ⟨c2.keyed, q3, by rw [q2, d2], ?_, s3, by rw [s2, g2], Or.inl ⟨rfl, rfl⟩⟩, rfl, ?_⟩
  · unfold seedRandom
    rw [b1, Res.ok_bind, handle_digestsize b2.hash.shape.shape, hsl, Res.ok_bind, p1, Res.ok_bind, q1, Res.ok_bind, c1, Res.ok_bind,
      s1, Res.ok_bind]
  · rw [q4, d2, replicate_be]
  · rw [s4, g2]

/-- AcquireRandomInfo and any sequence of requests: the stream of blocks from counter 0; its first 32 bytes go to the seeds. -/
theorem acquired_run (lsb : Bool) (junk : HashJunk) (mem : Nat → Byte) {t : HashType} (ht : HashType.Supported t) {fuel : Nat}
    (hf : 128 < fuel) {e1 e2 : StringInfo} (h1 : UpdatesOK t fuel [e1]) (h2 : UpdatesOK t fuel [e2]) (ns : List Nat)
    (p : List Byte) (hp : p = hmacPad (hashFn lsb t) (blockSize t) e2.bytes) (k : Nat)
    (hk : k = blocksFor (hashSize t) (32 + ns.sum) 0) :
    ∃ r, acquireRandom lsb fuel junk mem t e1 e2 = .ok r ∧
      if k < 256 ^ (2 * hashSize t - 1) then
        ∃ r', randomKeys lsb fuel r ns = .ok (((((List.range k).flatMap fun i => genFn lsb t p (be (2 * hashSize t) i)).drop 32).take ns.sum), r') ∧
          r'.used = (List.range k).map (be (2 * hashSize t)) ∧ r'.nonce.bytes = be (2 * hashSize t) k ∧ r'.nonce.length = 2 * hashSize t
      else randomKeys lsb fuel r ns = .fatal := by
  have hD := hashSize_pos ht
  obtain ⟨m, hm⟩ : ∃ m, 2 * hashSize t = m + 1 := ⟨2 * hashSize t - 1, by omega⟩
  obtain ⟨r0, r1, a1, a2, a3, a4, _⟩ := seed_holds lsb junk mem ht hf h1 h2
  rw [← hp] at a3
  have hpow : (0 : Nat) < 256 ^ m := Nat.pow_pos (by omega)
  have b := setRandomKey_spec ht hf a3 32
  have hk4 : blocksFor (hashSize t) 32 0 ≤ 4 := (blocksFor_spec (by omega)).2 4 (by omega)
  have hbig : 4 < 256 ^ m := by
    have : 256 ^ 1 ≤ 256 ^ m := Nat.pow_le_pow_right (by omega) (by omega)
    omega
  rw [List.length_nil, hm, genBlocks_be _ _ _ _ hpow, if_pos (by omega)] at b
  obtain ⟨r2, b1, b2, b3, b4⟩ := b
  have hr : acquireRandom lsb fuel junk mem t e1 e2 = .ok { r2 with
      seed0 := hostWord lsb ((([] ++ (List.range' 0 (blocksFor (hashSize t) 32 0)).flatMap fun i => genFn lsb t p (be (m + 1) i)).take 32).take 8),
      seed1 := hostWord lsb (((([] ++ (List.range' 0 (blocksFor (hashSize t) 32 0)).flatMap fun i => genFn lsb t p (be (m + 1) i)).take 32).drop 8).take 8),
      seed2 := hostWord lsb (((([] ++ (List.range' 0 (blocksFor (hashSize t) 32 0)).flatMap fun i => genFn lsb t p (be (m + 1) i)).take 32).drop 16).take 8),
      seed3 := hostWord lsb (((([] ++ (List.range' 0 (blocksFor (hashSize t) 32 0)).flatMap fun i => genFn lsb t p (be (m + 1) i)).take 32).drop 24).take 8) } := by
    unfold acquireRandom
    rw [a1, Res.ok_bind, a2, Res.ok_bind, b1, Res.ok_bind]
  rw [hr]
  refine ⟨_, rfl, ?_⟩
  generalize hx : ([] ++ (List.range' 0 (blocksFor (hashSize t) 32 0)).flatMap fun i => genFn lsb t p (be (m + 1) i)) = x at *
  obtain ⟨rr, hrr⟩ : ∃ rr : RandomInfo, rr = { r2 with
      seed0 := hostWord lsb ((x.take 32).take 8), seed1 := hostWord lsb (((x.take 32).drop 8).take 8),
      seed2 := hostWord lsb (((x.take 32).drop 16).take 8), seed3 := hostWord lsb (((x.take 32).drop 24).take 8) } := ⟨_, rfl⟩
  rw [← hrr]
  have hu : rr.used = r2.used := by rw [hrr]
  have c2 : RandomHolds lsb t p (be (m + 1) (0 + blocksFor (hashSize t) 32 0)) (x.drop 32) rr := by
    rw [hrr]; exact ⟨b2.hmac, b2.nonceWF, b2.nonceLen, b2.nonce, b2.resWF, b2.resLen, b2.left⟩
  clear hrr
  have d := randomKeys_spec ht hf ns c2
  rw [List.nil_append] at hx
  have hxl : x.length = blocksFor (hashSize t) 32 0 * hashSize t := by rw [hx] at b4; exact b4
  have hge := (blocksFor_spec (d := hashSize t) (n := 32) (l := 0) (by omega)).1
  have hkk : k = blocksFor (hashSize t) 32 0 + blocksFor (hashSize t) ns.sum (x.drop 32).length := by
    rw [hk, blocksFor_add (by omega), List.length_drop, hxl]; simp
  rw [Nat.zero_add] at d
  rw [genBlocks_be _ _ _ _ (by omega), ← hkk] at d
  rw [show 2 * hashSize t - 1 = m by omega]
  by_cases hq : k < 256 ^ m
  · rw [if_pos hq] at d ⊢
    obtain ⟨r3, d1, d2, d3⟩ := d
    refine ⟨r3, ?_, ?_, d2.nonce.trans (by rw [hm]), d2.nonceLen⟩
    · rw [d1, hm]
      congr 2
      congr 1
      rw [hkk, List.range_eq_range', ← List.range'_append_1, List.flatMap_append, Nat.zero_add, hx,
        List.drop_append_of_le_length (by omega)]
    · rw [d3, hu, b3, a4, List.nil_append, hm, genNonces_be _ _ _ (by omega), genNonces_be _ _ _ (by omega), ← List.map_append,
        List.range_eq_range', hkk, ← List.range'_append_1, Nat.zero_add]
  · rw [if_neg hq] at d ⊢
    exact d

theorem acquired_holds (lsb : Bool) (junk : HashJunk) (mem : Nat → Byte) {t : HashType} (ht : HashType.Supported t) {fuel : Nat}
    (hf : 128 < fuel) {e1 e2 : StringInfo} (h1 : UpdatesOK t fuel [e1]) (h2 : UpdatesOK t fuel [e2]) :
    ∃ r, acquireRandom lsb fuel junk mem t e1 e2 = .ok r ∧
      ∃ c left, RandomHolds lsb t (hmacPad (hashFn lsb t) (blockSize t) e2.bytes) c left r := by
  have hD := hashSize_pos ht
  obtain ⟨m, hm⟩ : ∃ m, 2 * hashSize t = m + 1 := ⟨2 * hashSize t - 1, by omega⟩
  obtain ⟨r0, r1, a1, a2, a3, a4, _⟩ := seed_holds lsb junk mem ht hf h1 h2
  have hpow : (0 : Nat) < 256 ^ m := Nat.pow_pos (by omega)
  have b := setRandomKey_spec ht hf a3 32
  have hk4 : blocksFor (hashSize t) 32 0 ≤ 4 := (blocksFor_spec (by omega)).2 4 (by omega)
  have hbig : 4 < 256 ^ m := by
    have : 256 ^ 1 ≤ 256 ^ m := Nat.pow_le_pow_right (by omega) (by omega)
    omega
  rw [List.length_nil, hm, genBlocks_be _ _ _ _ hpow, if_pos (by omega)] at b
  obtain ⟨r2, b1, b2, b3, b4⟩ := b
  unfold acquireRandom
  rw [a1, Res.ok_bind, a2, Res.ok_bind, b1, Res.ok_bind]
  exact ⟨_, rfl, _, _, ⟨b2.hmac, b2.nonceWF, b2.nonceLen, b2.nonce, b2.resWF, b2.resLen, b2.left⟩⟩

theorem genBlocks_length {lsb : Bool} {t : HashType} (ht : HashType.Supported t) {fuel : Nat} {p c left : List Byte} {r : RandomInfo}
    (h : RandomHolds lsb t p c left r) (hf : 128 < fuel) {k : Nat} {x : List Byte × List Byte}
    (hg : genBlocks (genFn lsb t p) k c = some x) : x.1.length = k * hashSize t := by
  have hD := hashSize_pos ht
  have a := setRandomKey_spec (fuel := fuel) ht hf (left := []) (r := { r with i := 0 })
    ⟨h.hmac, h.nonceWF, h.nonceLen, h.nonce, h.resWF, h.resLen, .inl ⟨rfl, rfl⟩⟩ (k * hashSize t)
  have hb : blocksFor (hashSize t) (k * hashSize t) ([] : List Byte).length = k := by
    rw [blocksFor_eq (by omega)]; simp [Nat.mul_div_cancel k (show 0 < hashSize t by omega)]
  rw [hb, hg] at a
  obtain ⟨_, _, _, _, h⟩ := a
  exact h

theorem published_size (junk : HashJunk) {t : HashType}
    (ht : t = .crc64 ∨ t = .md5 ∨ t = .sha1 ∨ t = .sha2 ∨ t = .sha2256 ∨ t = .sha2384 ∨ t = .sha2512) :
    (published t []).length = hashSize t := by
  have hs : HashType.Supported t := by rcases ht with rfl | rfl | rfl | rfl | rfl | rfl | rfl <;> exact ⟨nofun, nofun⟩
  obtain ⟨h0, a1, a2⟩ := acquireHash_shape true junk t hs
  obtain ⟨h, b1, b2, b3⟩ := hashSession_holds (fuel := 1) (ds := []) a2 (fun d hd => by cases hd)
  have : hashFn true t (allBytes []) = published t [] := by
    rcases ht with rfl | rfl | rfl | rfl | rfl | rfl | rfl <;> rfl
  rw [← this, ← b3, StringInfo.bytes_length b2.wf, b2.size]

theorem nonceNext_num {c c' : List Byte} (h : nonceNext c = some c') : num c' = num c + 1 := by
  cases c with
  | nil => cases h
  | cons b t =>
    rw [nonceNext] at h
    split at h
    · rename_i hlt
      cases h
      have e : ∀ (l : List Byte) (a : Nat), l.foldl (fun v b => 256 * v + b.toNat) a = a * 256 ^ l.length + num l := by
        intro l
        refine snoc_induction (P := fun l => ∀ a : Nat, l.foldl (fun v b => 256 * v + b.toNat) a = a * 256 ^ l.length + num l) ?_ ?_ l
        · intro a; simp [num]
        · intro l x ih a
          rw [List.foldl_append, ih, num_snoc, List.length_append, List.length_singleton, Nat.pow_succ]
          simp only [List.foldl_cons, List.foldl_nil]
          rw [Nat.mul_add, ← Nat.mul_assoc a, Nat.mul_comm 256 (a * _)]; omega
      show List.foldl _ (256 * 0 + b.toNat) _ = List.foldl _ (256 * 0 + b.toNat) _ + 1
      rw [e, e, be_length, num_be _ _ hlt]; omega
    · cases h

theorem nonceNext_none {c : List Byte} (h : nonceNext c = none) : ∀ b ∈ c.tail, b = 0xff := by
  cases c with
  | nil => intro b hb; cases hb
  | cons b t =>
    rw [nonceNext] at h
    split at h
    · cases h
    · rename_i hge
      rw [List.tail_cons]
      have : ∀ l : List Byte, ¬ num l + 1 < 256 ^ l.length → ∀ b ∈ l, b = 0xff := by
        intro l
        refine snoc_induction (P := fun l => ¬ num l + 1 < 256 ^ l.length → ∀ b ∈ l, b = 0xff) ?_ ?_ l
        · intro _ b hb; cases hb
        · intro l x ih hx b hb
          rw [num_snoc, List.length_append, List.length_singleton, Nat.pow_succ] at hx
          have h1 := num_lt l
          have h2 := x.isLt
          rcases List.mem_append.mp hb with hb | hb
          · exact ih (by omega) b hb
          · rw [List.mem_singleton.mp hb]
            apply BitVec.eq_of_toNat_eq
            show _ = 255
            omega
      exact this t hge

/-! ### GetPseudoRandomValue -/

theorem rotl_back (x : BitVec 64) : randomRotl (randomRotl x 45) 19 = x := by
  apply BitVec.eq_of_getLsbD_eq
  intro i hi
  unfold randomRotl
  simp only [BitVec.getLsbD_or, BitVec.getLsbD_shiftLeft, BitVec.getLsbD_ushiftRight, hi]
  by_cases h : i < 19
  · have h1 : ¬ (64 - 19 + i < 45) := by omega
    have h2 : x.getLsbD (64 - 45 + (64 - 19 + i)) = false := BitVec.getLsbD_of_ge _ _ (by omega)
    simp [h, h1]
    have h4 : 45 + i < 64 := by omega
    have h5 : x.getLsbD (19 + (45 + i)) = false := BitVec.getLsbD_of_ge _ _ (by omega)
    simp [h4, h5]
  · have h1 : i - 19 < 45 := by omega
    have h2 : 19 + (i - 19) = i := by omega
    have h3 : x.getLsbD (19 + (45 + i)) = false := BitVec.getLsbD_of_ge _ _ (by omega)
    have h4 : ¬ 45 + i < 64 := by omega
    simp [h, h1, h2, h3, h4]

theorem rotl_forth (x : BitVec 64) : randomRotl (randomRotl x 19) 45 = x := by
  apply BitVec.eq_of_getLsbD_eq
  intro i hi
  unfold randomRotl
  simp only [BitVec.getLsbD_or, BitVec.getLsbD_shiftLeft, BitVec.getLsbD_ushiftRight, hi]
  by_cases h : i < 45
  · have h1 : 19 + i - 19 = i := by omega
    have h2 : 19 + i < 64 := by omega
    have h5 : x.getLsbD (45 + (19 + i)) = false := BitVec.getLsbD_of_ge _ _ (by omega)
    simp [h, h1, h2, h5]
  · have h1 : i - 45 < 19 := by omega
    have h2 : 45 + (i - 45) = i := by omega
    have h3 : x.getLsbD (45 + (19 + i)) = false := BitVec.getLsbD_of_ge _ _ (by omega)
    have h4 : ¬ 19 + i < 64 := by omega
    simp [h, h1, h2, h3, h4]

/-- The inverse of `x ^^^ (x <<< 17)`. -/
def unshift17 (z : BitVec 64) : BitVec 64 := z ^^^ (z <<< 17) ^^^ (z <<< 34) ^^^ (z <<< 51)

theorem unshift17_shift (x : BitVec 64) : unshift17 (x ^^^ (x <<< 17)) = x := by
  unfold unshift17
  simp only [BitVec.shiftLeft_xor_distrib, ← BitVec.shiftLeft_add]
  have : x <<< (17 + 51) = 0#64 := by apply BitVec.shiftLeft_eq_zero; omega
  rw [this]
  apply BitVec.eq_of_getLsbD_eq
  intro i hi
  simp only [BitVec.getLsbD_xor, BitVec.getLsbD_zero]
  show ((((x.getLsbD i ^^ (x <<< 17).getLsbD i) ^^ ((x <<< 17).getLsbD i ^^ (x <<< 34).getLsbD i)) ^^
    ((x <<< 34).getLsbD i ^^ (x <<< 51).getLsbD i)) ^^ ((x <<< 51).getLsbD i ^^ false)) = _
  cases x.getLsbD i <;> cases (x <<< 17).getLsbD i <;> cases (x <<< 34).getLsbD i <;> cases (x <<< 51).getLsbD i <;> rfl

theorem shift_unshift17 (x : BitVec 64) : unshift17 x ^^^ (unshift17 x <<< 17) = x := by
  have := unshift17_shift x
  unfold unshift17 at this ⊢
  simp only [BitVec.shiftLeft_xor_distrib, ← BitVec.shiftLeft_add] at this ⊢
  have h : x <<< (51 + 17) = 0#64 := by apply BitVec.shiftLeft_eq_zero; omega
  rw [h]
  apply BitVec.eq_of_getLsbD_eq
  intro i hi
  simp only [BitVec.getLsbD_xor, BitVec.getLsbD_zero]
  show ((((x.getLsbD i ^^ (x <<< 17).getLsbD i) ^^ (x <<< 34).getLsbD i) ^^ (x <<< 51).getLsbD i) ^^
    ((((x <<< 17).getLsbD i ^^ (x <<< 34).getLsbD i) ^^ (x <<< 51).getLsbD i) ^^ false)) = _
  cases x.getLsbD i <;> cases (x <<< 17).getLsbD i <;> cases (x <<< 34).getLsbD i <;> cases (x <<< 51).getLsbD i <;> rfl

def pseudoBack (s0 s1 s2 s3 : BitVec 64) : BitVec 64 × BitVec 64 × BitVec 64 × BitVec 64 :=
  let y := randomRotl s3 19
  let a0 := s0 ^^^ y
  let a1 := unshift17 (s1 ^^^ s2)
  (a0, a1, (s1 ^^^ a1) ^^^ a0, y ^^^ a1)

theorem xor_self_cancel (a b : BitVec 64) : (a ^^^ b) ^^^ b = a := by
  rw [BitVec.xor_assoc, BitVec.xor_self, BitVec.xor_zero]

theorem pseudo_back (r : RandomInfo) : pseudoBack (pseudoStep r).seed0 (pseudoStep r).seed1 (pseudoStep r).seed2 (pseudoStep r).seed3 =
    (r.seed0, r.seed1, r.seed2, r.seed3) := by
  unfold pseudoBack pseudoStep
  simp only [rotl_back]
  have e : r.seed1 ^^^ (r.seed2 ^^^ r.seed0) ^^^ (r.seed2 ^^^ r.seed0 ^^^ r.seed1 <<< 17) = r.seed1 ^^^ r.seed1 <<< 17 := by
    generalize r.seed2 ^^^ r.seed0 = y
    rw [← BitVec.xor_assoc, xor_self_cancel]
  rw [e, unshift17_shift, xor_self_cancel, xor_self_cancel]
  congr 3
  rw [BitVec.xor_comm r.seed1, xor_self_cancel, xor_self_cancel]

def withSeeds (r : RandomInfo) (b : BitVec 64 × BitVec 64 × BitVec 64 × BitVec 64) : RandomInfo :=
  { r with seed0 := b.1, seed1 := b.2.1, seed2 := b.2.2.1, seed3 := b.2.2.2 }

theorem pseudo_forth (r r' : RandomInfo) (h : r' = withSeeds r (pseudoBack r.seed0 r.seed1 r.seed2 r.seed3)) :
    ((pseudoStep r').seed0, (pseudoStep r').seed1, (pseudoStep r').seed2, (pseudoStep r').seed3) =
      (r.seed0, r.seed1, r.seed2, r.seed3) := by
  subst h
  unfold withSeeds
  unfold pseudoBack pseudoStep
  simp only [xor_self_cancel, rotl_forth]
  have h := shift_unshift17 (r.seed1 ^^^ r.seed2)
  generalize unshift17 (r.seed1 ^^^ r.seed2) = u at *
  have h1 : u ^^^ (r.seed1 ^^^ u) = r.seed1 := by rw [BitVec.xor_comm, xor_self_cancel]
  have h2 : r.seed1 ^^^ u ^^^ u <<< 17 = r.seed2 := by
    rw [BitVec.xor_assoc, h, ← BitVec.xor_assoc, BitVec.xor_self, BitVec.zero_xor]
  rw [h1, h2]

/-! ### Rounding -/

theorem roundDouble_le {a e : Nat} (he : 53 ≤ e) (h : a < 2 ^ e) : roundDouble a ≤ 2 ^ e := by
  unfold roundDouble
  split
  · exact Nat.le_of_lt h
  · rename_i hge
    have ha : a ≠ 0 := by omega
    have hl : a.log2 < e := (Nat.log2_lt ha).mpr h
    have h53 : 53 ≤ a.log2 := by
      rcases Nat.lt_or_ge a.log2 53 with h | h
      · exact absurd ((Nat.log2_lt ha).mp h) hge
      · exact h
    simp only []
    have hq : a / 2 ^ (a.log2 - 52) < 2 ^ 53 := by
      rw [Nat.div_lt_iff_lt_mul (Nat.pow_pos (by omega)), ← Nat.pow_add]
      exact (Nat.log2_lt ha).mp (by omega)
    have hu : 2 ^ 53 * 2 ^ (a.log2 - 52) ≤ 2 ^ e := by
      rw [← Nat.pow_add]; exact Nat.pow_le_pow_right (by omega) (by omega)
    have h1 : (a / 2 ^ (a.log2 - 52) + 1) * 2 ^ (a.log2 - 52) ≤ 2 ^ 53 * 2 ^ (a.log2 - 52) := Nat.mul_le_mul_right _ (by omega)
    have h2 : (a / 2 ^ (a.log2 - 52)) * 2 ^ (a.log2 - 52) ≤ (a / 2 ^ (a.log2 - 52) + 1) * 2 ^ (a.log2 - 52) := Nat.mul_le_mul_right _ (by omega)
    split <;> omega

theorem log2_of {a e : Nat} (h1 : 2 ^ e ≤ a) (h2 : a < 2 ^ (e + 1)) : a.log2 = e := by
  have ha : a ≠ 0 := by have := Nat.pow_pos (n := e) (show 0 < 2 by omega); omega
  have h3 := (Nat.log2_lt ha).mpr h2
  rcases Nat.lt_or_ge a.log2 e with h | h
  · have := (Nat.log2_lt ha).mp h; omega
  · omega

theorem roundDouble_at {a e : Nat} (h0 : 53 ≤ e) (h1 : 2 ^ e ≤ a) (h2 : a < 2 ^ (e + 1)) : roundDouble a =
    if 2 * (a % 2 ^ (e - 52)) < 2 ^ (e - 52) ∨ (2 * (a % 2 ^ (e - 52)) = 2 ^ (e - 52) ∧ a / 2 ^ (e - 52) % 2 = 0)
    then a / 2 ^ (e - 52) * 2 ^ (e - 52) else (a / 2 ^ (e - 52) + 1) * 2 ^ (e - 52) := by
  unfold roundDouble
  rw [if_neg (by have : (2:Nat) ^ 53 ≤ 2 ^ e := Nat.pow_le_pow_right (by omega) h0; omega), log2_of h1 h2]

theorem roundDouble_top {a : Nat} (h1 : 2 ^ 64 - 1024 ≤ a) (h2 : a < 2 ^ 64) : roundDouble a = 2 ^ 64 := by
  rw [roundDouble_at (e := 63) (by omega) (by omega) (by omega)]
  simp only [show 63 - 52 = 11 from rfl]
  have : a / 2 ^ 11 = 2 ^ 53 - 1 := by omega
  rw [this, if_neg (by omega)]

theorem roundDouble_lt64 {a : Nat} (h : a < 2 ^ 64 - 1024) : roundDouble a < 2 ^ 64 := by
  rcases Nat.lt_or_ge a (2 ^ 63) with h1 | h1
  · have := roundDouble_le (by omega) h1; omega
  · rw [roundDouble_at (e := 63) (by omega) h1 (by omega)]
    simp only [show 63 - 52 = 11 from rfl]
    split <;> omega

theorem pseudo_value_lt' {v : Nat} (h : v < 2 ^ 53 - 2) : roundDouble (v * normalizeNum) < 2 ^ 105 := by
  unfold normalizeNum
  rcases Nat.lt_or_ge (v * (2 ^ 52 + 1)) (2 ^ 104) with h1 | h1
  · have := roundDouble_le (by omega) h1; omega
  · have hv : 2 ^ 52 ≤ v := by omega
    rw [roundDouble_at (e := 104) (by omega) h1 (by omega)]
    simp only [show 104 - 52 = 52 from rfl]
    have e : v * (2 ^ 52 + 1) / 2 ^ 52 = v + 1 := by omega
    rw [e]
    split <;> omega

theorem pseudo_top {v : Nat} (h1 : 2 ^ 53 - 2 ≤ v) (h2 : v < 2 ^ 53) : roundDouble (v * normalizeNum) = 2 ^ 105 := by
  unfold normalizeNum
  rcases Nat.lt_or_ge v (2 ^ 53 - 1) with h | h
  · have : v = 2 ^ 53 - 2 := by omega
    subst this
    rw [roundDouble_at (e := 104) (by omega) (by omega) (by omega)]
    simp only [show 104 - 52 = 52 from rfl]
    rw [if_neg (by omega)]
  · have : v = 2 ^ 53 - 1 := by omega
    subst this
    rw [roundDouble_at (e := 105) (by omega) (by omega) (by omega)]
    simp only [show 105 - 52 = 53 from rfl]
    rw [if_pos (by omega)]

theorem pseudo_value_lt {r : RandomInfo} (h : (r.seed0 + r.seed3).toNat < 2 ^ 64 - 2 ^ 12) :
    (getPseudoRandomValue r).1.num < 2 ^ (getPseudoRandomValue r).1.exp := by
  refine pseudo_value_lt' ?_
  rw [BitVec.toNat_ushiftRight, Nat.shiftRight_eq_div_pow]
  omega

theorem pseudo_value_one {r : RandomInfo} (h : 2 ^ 64 - 2 ^ 12 ≤ (r.seed0 + r.seed3).toNat) :
    (getPseudoRandomValue r).1.num = 2 ^ (getPseudoRandomValue r).1.exp := by
  have h2 := (r.seed0 + r.seed3).isLt
  show roundDouble ((((r.seed0 + r.seed3) >>> 11).toNat) * normalizeNum) = 2 ^ 105
  rw [BitVec.toNat_ushiftRight, Nat.shiftRight_eq_div_pow]
  exact pseudo_top (by omega) (by omega)

theorem pseudo_value_le (r : RandomInfo) : (getPseudoRandomValue r).1.num ≤ 2 ^ (getPseudoRandomValue r).1.exp := by
  rcases Nat.lt_or_ge (r.seed0 + r.seed3).toNat (2 ^ 64 - 2 ^ 12) with h | h
  · exact Nat.le_of_lt (pseudo_value_lt h)
  · exact Nat.le_of_eq (pseudo_value_one h)

end Wizard

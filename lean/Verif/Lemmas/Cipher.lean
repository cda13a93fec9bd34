import Verif.Spec.Cipher
import Verif.Lemmas.Mem
import Verif.Lemmas.Res
/-! The cipher loops as functions on lists of blocks. -/
namespace Wizard

abbrev CStep := List Byte → List Byte → Res (List Byte × List Byte)

/-- The loop on a list of blocks. -/
def runSteps (step : CStep) : List Byte → List (List Byte) → Res (List (List Byte))
  | _, [] => .ok []
  | st, b :: bs => do
    let (st, b) ← step st b
    let r ← runSteps step st bs
    .ok (b :: r)

/-- `step` keeps the register invariant `I` and the block size. -/
def KeepsSize (stride : Nat) (I : List Byte → Prop) (step : CStep) : Prop :=
  ∀ st b st' b', I st → b.length = stride → step st b = .ok (st', b') → I st' ∧ b'.length = stride

theorem runSteps_length {stride : Nat} {I : List Byte → Prop} {step : CStep}
    (hk : KeepsSize stride I step) (bl : List (List Byte)) :
    ∀ st r, I st → (∀ b ∈ bl, b.length = stride) → runSteps step st bl = .ok r →
      r.length = bl.length ∧ ∀ b ∈ r, b.length = stride := by
  induction bl with
  | nil => intro st r _ _ h; cases h; exact ⟨rfl, by simp⟩
  | cons b bl ih =>
    intro st r hI hb h
    simp only [runSteps] at h
    cases hs : step st b with
    | ub => simp [hs] at h
    | fatal => simp [hs] at h
    | ok v =>
      obtain ⟨st', b'⟩ := v
      obtain ⟨hI', hb'⟩ := hk _ _ _ _ hI (hb b (by simp)) hs
      simp only [hs, Res.ok_bind] at h
      cases hr : runSteps step st' bl with
      | ub => simp [hr] at h
      | fatal => simp [hr] at h
      | ok v =>
        simp only [hr, Res.ok_bind, Res.ok.injEq] at h
        obtain ⟨h1, h2⟩ := ih st' v hI' (fun x hx => hb x (by simp [hx])) hr
        subst h
        refine ⟨by simp [h1], ?_⟩
        intro x hx
        rcases List.mem_cons.1 hx with rfl | hx
        · exact hb'
        · exact h2 x hx

theorem flatten_length {stride : Nat} (bl : List (List Byte)) (h : ∀ b ∈ bl, b.length = stride) :
    bl.flatten.length = stride * bl.length := by
  induction bl with
  | nil => simp
  | cons b bl ih =>
    rw [List.flatten_cons, List.length_append, h b (by simp), ih (fun x hx => h x (by simp [hx])),
      List.length_cons, Nat.mul_succ]
    omega

/-- The loop in memory is the loop on the blocks. -/
theorem cipherLoop_spec {stride : Nat} {I : List Byte → Prop} {step : CStep}
    (hk : KeepsSize stride I step) (q : Nat) (post : List Byte) (bl : List (List Byte)) :
    ∀ (n : Nat) (st : List Byte) (pre : List Byte), I st → (∀ b ∈ bl, b.length = stride) →
      bl.length < n → q ≤ pre.length + stride * bl.length →
      (bl ≠ [] → pre.length + stride * bl.length < q + stride) →
      cipherLoop stride q step n pre.length st (pre ++ (bl.flatten ++ post)) =
        (runSteps step st bl >>= fun r => .ok (pre ++ (r.flatten ++ post))) := by
  induction bl with
  | nil =>
    intro n st pre _ _ hn hq _
    obtain ⟨n, rfl⟩ : ∃ m, n = m + 1 := ⟨n - 1, by simp at hn; omega⟩
    rw [cipherLoop, if_neg (by simp at hq; omega)]
    simp [runSteps]
  | cons b bl ih =>
    intro n st pre hI hb hn hq hq'
    obtain ⟨n, rfl⟩ : ∃ m, n = m + 1 := ⟨n - 1, by simp at hn; omega⟩
    have hbl : b.length = stride := hb b (by simp)
    have hlt : pre.length < q := by
      have := hq' (by simp)
      rw [List.length_cons, Nat.mul_succ] at this
      have h0 : 0 ≤ stride * bl.length := Nat.zero_le _
      omega
    have hr : rdN (pre ++ ((b :: bl).flatten ++ post)) pre.length stride = .ok b := by
      rw [rdN_ok (by simp [hbl]), List.drop_left, List.flatten_cons, List.append_assoc, ← hbl, List.take_left]
    rw [cipherLoop, if_pos hlt, hr, Res.ok_bind, runSteps]
    cases hst : step st b with
    | ub => rfl
    | fatal => rfl
    | ok v =>
      obtain ⟨st', b'⟩ := v
      obtain ⟨hI', hb'⟩ := hk _ _ _ _ hI hbl hst
      have hw : wrN (pre ++ ((b :: bl).flatten ++ post)) pre.length b' =
          .ok ((pre ++ b') ++ (bl.flatten ++ post)) := by
        rw [wrN_ok (by simp [hbl, hb'])]
        have e : pre ++ ((b :: bl).flatten ++ post) = (pre ++ b) ++ (bl.flatten ++ post) := by simp
        congr 1
        congr 1
        · simp
        · rw [e, show pre.length + b'.length = (pre ++ b).length by simp [hbl, hb'], List.drop_left]
      simp only [Res.ok_bind, hw]
      have hpl : pre.length + stride = (pre ++ b').length := by simp [hb']
      rw [hpl, ih n st' (pre ++ b') hI' (fun x hx => hb x (by simp [hx])) (by simp at hn; omega)]
      · cases runSteps step st' bl with
        | ub => rfl
        | fatal => rfl
        | ok r => simp
      · rw [List.length_cons, Nat.mul_succ] at hq
        rw [← hpl]; omega
      · intro _
        have := hq' (by simp)
        rw [List.length_cons, Nat.mul_succ] at this
        rw [← hpl]; omega

/-- The first `k` blocks of a buffer. -/
def chunks (stride : Nat) : Nat → List Byte → List (List Byte)
  | 0, _ => []
  | k + 1, m => m.take stride :: chunks stride k (m.drop stride)

theorem chunks_length (stride k : Nat) (m : List Byte) : (chunks stride k m).length = k := by
  induction k generalizing m with
  | zero => rfl
  | succ k ih => simp [chunks, ih]

theorem chunks_size (stride k : Nat) (m : List Byte) (h : stride * k ≤ m.length) :
    ∀ b ∈ chunks stride k m, b.length = stride := by
  induction k generalizing m with
  | zero => simp [chunks]
  | succ k ih =>
    rw [Nat.mul_succ] at h
    intro b hb
    rcases List.mem_cons.1 hb with rfl | hb
    · rw [List.length_take]; omega
    · exact ih _ (by rw [List.length_drop]; omega) b hb

theorem chunks_flatten (stride k : Nat) (m : List Byte) : (chunks stride k m).flatten = m.take (stride * k) := by
  induction k generalizing m with
  | zero => simp [chunks]
  | succ k ih =>
    rw [chunks, List.flatten_cons, ih, Nat.mul_succ, Nat.add_comm, List.take_add]

theorem chunks_take (stride k j : Nat) (m : List Byte) (h : j ≤ k) :
    (chunks stride k m).take j = chunks stride j m := by
  induction j generalizing k m with
  | zero => simp [chunks]
  | succ j ih =>
    obtain ⟨k, rfl⟩ : ∃ k', k = k' + 1 := ⟨k - 1, by omega⟩
    simp [chunks, ih k _ (by omega)]

theorem chunks_congr (stride k : Nat) (m m' : List Byte) (h : m.take (stride * k) = m'.take (stride * k)) :
    chunks stride k m = chunks stride k m' := by
  induction k generalizing m m' with
  | zero => rfl
  | succ k ih =>
    rw [Nat.mul_succ] at h
    rw [chunks, chunks]
    have h1 := congrArg (List.take stride) h
    have h2 := congrArg (List.drop stride) h
    rw [List.take_take, List.take_take, Nat.min_eq_left (by omega)] at h1
    rw [List.drop_take, List.drop_take, Nat.add_sub_cancel] at h2
    rw [h1, ih _ _ h2]

/-- Number of turns of a loop over `len` bytes. -/
def turns (stride len : Nat) : Nat := (len + stride - 1) / stride

theorem turns_ge (stride len : Nat) (hs : 0 < stride) : len ≤ stride * turns stride len := by
  unfold turns
  have := Nat.div_add_mod (len + stride - 1) stride
  have := Nat.mod_lt (len + stride - 1) hs
  omega

theorem turns_lt (stride len : Nat) (hs : 0 < stride) : stride * turns stride len < len + stride := by
  unfold turns
  have := Nat.div_mul_le_self (len + stride - 1) stride
  rw [Nat.mul_comm] at this
  omega

theorem turns_le (stride len : Nat) (hs : 0 < stride) : turns stride len ≤ len := by
  have h := turns_lt stride len hs
  rcases Nat.lt_or_ge len (turns stride len) with hlt | h'
  · have : stride * (len + 1) ≤ stride * turns stride len := Nat.mul_le_mul_left _ hlt
    rw [Nat.mul_succ] at this
    have : len ≤ stride * len := Nat.le_mul_of_pos_left _ hs
    omega
  · exact h'

theorem turns_one (len : Nat) : turns 1 len = len := by simp [turns]

/-- A loop over a buffer with enough room. -/
theorem cipherLoop_buffer {stride : Nat} {I : List Byte → Prop} {step : CStep} (hs : 0 < stride)
    (hk : KeepsSize stride I step) (q : Nat) (st m : List Byte) (hI : I st)
    (hm : stride * turns stride q ≤ m.length) :
    cipherLoop stride q step (q + 1) 0 st m =
      (runSteps step st (chunks stride (turns stride q) m) >>= fun r =>
        .ok (r.flatten ++ m.drop (stride * turns stride q))) := by
  have h := cipherLoop_spec hk q (m.drop (stride * turns stride q)) (chunks stride (turns stride q) m)
    (q + 1) st [] hI (chunks_size _ _ _ hm) (by rw [chunks_length]; have := turns_le stride q hs; omega)
    (by rw [chunks_length]; have := turns_ge stride q hs; simpa using this)
    (by intro _; rw [chunks_length]; have := turns_lt stride q hs; simpa using this)
  rw [chunks_flatten, List.take_append_drop] at h
  simpa using h

/-- `dec` undoes `enc` block by block. -/
def Undoes (stride : Nat) (I : List Byte → Prop) (enc dec : CStep) : Prop :=
  ∀ st b st' b', I st → b.length = stride → enc st b = .ok (st', b') → dec st b' = .ok (st', b)

theorem runSteps_undo {stride : Nat} {I : List Byte → Prop} {enc dec : CStep}
    (hk : KeepsSize stride I enc) (hu : Undoes stride I enc dec) (bl : List (List Byte)) :
    ∀ (st : List Byte) (r : List (List Byte)), I st → (∀ b ∈ bl, b.length = stride) →
      runSteps enc st bl = .ok r → ∀ k, runSteps dec st (r.take k) = .ok (bl.take k) := by
  induction bl with
  | nil => intro st r _ _ h k; cases h; simp [runSteps]
  | cons b bl ih =>
    intro st r hI hb h k
    simp only [runSteps] at h
    cases hs : enc st b with
    | ub => simp [hs] at h
    | fatal => simp [hs] at h
    | ok v =>
      obtain ⟨st', b'⟩ := v
      have hbl := hb b (by simp)
      obtain ⟨hI', hb'⟩ := hk _ _ _ _ hI hbl hs
      simp only [hs, Res.ok_bind] at h
      cases hr : runSteps enc st' bl with
      | ub => simp [hr] at h
      | fatal => simp [hr] at h
      | ok v =>
        simp only [hr, Res.ok_bind, Res.ok.injEq] at h
        subst h
        cases k with
        | zero => simp [runSteps]
        | succ k =>
          simp only [List.take_succ_cons, runSteps, hu _ _ _ _ hI hbl hs, Res.ok_bind,
            ih st' v hI' (fun x hx => hb x (by simp [hx])) hr k]

theorem xorBlock_length (a b : List Byte) : (xorBlock a b).length = min a.length b.length := by
  simp [xorBlock]

theorem xorBlock_cancel (a b : List Byte) (h : a.length ≤ b.length) : xorBlock (xorBlock a b) b = a := by
  induction a generalizing b with
  | nil => simp [xorBlock]
  | cons x a ih =>
    cases b with
    | nil => simp at h
    | cons y b =>
      have := ih b (by simpa using h)
      simp only [xorBlock, List.zipWith_cons_cons] at this ⊢
      rw [this, BitVec.xor_assoc, BitVec.xor_self, BitVec.xor_zero]

theorem ecb_keeps (c : BlockCipher) (h : c.Sized) :
    KeepsSize c.blocksize (fun _ => True) (ecbEncStep c) ∧
    KeepsSize c.blocksize (fun _ => True) (ecbDecStep c) := by
  constructor <;> intro st b st' b' _ hb he <;> cases he
  · exact ⟨trivial, (h b hb).1⟩
  · exact ⟨trivial, (h b hb).2⟩

theorem cbc_keeps (c : BlockCipher) (h : c.Sized) :
    KeepsSize c.blocksize (fun st => st.length = c.blocksize) (cbcEncStep c) ∧
    KeepsSize c.blocksize (fun st => st.length = c.blocksize) (cbcDecStep c) := by
  constructor <;> intro st b st' b' hst hb he <;> cases he
  · have := (h (xorBlock b st) (by rw [xorBlock_length, hst, hb, Nat.min_self])).1
    exact ⟨this, this⟩
  · exact ⟨hb, by rw [xorBlock_length, (h b hb).2, hst, Nat.min_self]⟩

theorem incrementNonce_length (n : List Byte) (i : Nat) (r : List Byte) (h : incrementNonce n i = .ok r) :
    r.length = n.length := by
  induction i generalizing n with
  | zero => cases h
  | succ i ih =>
    simp only [incrementNonce] at h
    split at h
    · cases h; simp
    · have := ih _ h; simpa using this

theorem ctr_keeps (c : BlockCipher) (h : c.Sized) :
    KeepsSize c.blocksize (fun st => st.length = c.blocksize) (ctrStep c) := by
  intro st b st' b' hst hb he
  unfold ctrStep at he
  cases hi : incrementNonce st c.blocksize with
  | ub => simp [hi] at he
  | fatal => simp [hi] at he
  | ok v =>
    simp only [hi, Res.ok_bind, Res.ok.injEq, Prod.mk.injEq] at he
    obtain ⟨rfl, rfl⟩ := he
    exact ⟨(incrementNonce_length _ _ _ hi).trans hst, by
      rw [xorBlock_length, hb, (h st hst).1, Nat.min_self]⟩

theorem ofb_keeps (c : BlockCipher) (h : c.Sized) :
    KeepsSize c.blocksize (fun st => st.length = c.blocksize) (ofbStep c) := by
  intro st b st' b' hst hb he
  cases he
  exact ⟨(h st hst).1, by rw [xorBlock_length, hb, (h st hst).1, Nat.min_self]⟩

theorem cfb_keeps (c : BlockCipher) (hp : 0 < c.blocksize) :
    KeepsSize 1 (fun st => st.length = c.blocksize) (cfbEncStep c) ∧
    KeepsSize 1 (fun st => st.length = c.blocksize) (cfbDecStep c) := by
  constructor <;> intro st b st' b' hst hb he <;> cases he <;>
    exact ⟨by simp [hst]; omega, rfl⟩

theorem ecb_undoes (c : BlockCipher) (h : c.Invertible) :
    Undoes c.blocksize (fun _ => True) (ecbEncStep c) (ecbDecStep c) := by
  intro st b st' b' _ hb he
  cases he
  simp only [ecbDecStep, h b hb]

theorem cbc_undoes (c : BlockCipher) (h : c.Invertible) :
    Undoes c.blocksize (fun st => st.length = c.blocksize) (cbcEncStep c) (cbcDecStep c) := by
  intro st b st' b' hst hb he
  cases he
  simp only [cbcDecStep]
  rw [h _ (by rw [xorBlock_length, hb, hst, Nat.min_self]), xorBlock_cancel _ _ (by omega)]

theorem ctr_undoes (c : BlockCipher) (h : c.Sized) :
    Undoes c.blocksize (fun st => st.length = c.blocksize) (ctrStep c) (ctrStep c) := by
  intro st b st' b' hst hb he
  unfold ctrStep at he ⊢
  cases hi : incrementNonce st c.blocksize with
  | ub => simp [hi] at he
  | fatal => simp [hi] at he
  | ok v =>
    simp only [hi, Res.ok_bind, Res.ok.injEq, Prod.mk.injEq] at he ⊢
    obtain ⟨rfl, rfl⟩ := he
    exact ⟨rfl, xorBlock_cancel _ _ (by rw [(h st hst).1]; omega)⟩

theorem ofb_undoes (c : BlockCipher) (h : c.Sized) :
    Undoes c.blocksize (fun st => st.length = c.blocksize) (ofbStep c) (ofbStep c) := by
  intro st b st' b' hst hb he
  cases he
  simp only [ofbStep]
  rw [xorBlock_cancel _ _ (by rw [(h st hst).1]; omega)]

theorem cfb_undoes (c : BlockCipher) :
    Undoes 1 (fun st => st.length = c.blocksize) (cfbEncStep c) (cfbDecStep c) := by
  intro st b st' b' hst hb he
  cases he
  match b, hb with
  | [x], _ =>
    simp [cfbDecStep, BitVec.xor_assoc]

/-- No turn of a loop is undefined behaviour, whatever the data. -/
def NoUb (step : CStep) : Prop := ∀ st b, step st b ≠ .ub

theorem runSteps_noUb {step : CStep} (h : NoUb step) (bl : List (List Byte)) (st : List Byte) :
    runSteps step st bl ≠ .ub := by
  induction bl generalizing st with
  | nil => simp [runSteps]
  | cons b bl ih =>
    simp only [runSteps]
    cases hs : step st b with
    | ub => exact absurd hs (h st b)
    | fatal => simp
    | ok v =>
      simp only [Res.ok_bind]
      cases hr : runSteps step v.1 bl with
      | ub => exact absurd hr (ih v.1)
      | fatal => simp
      | ok r => simp

theorem incrementNonce_noUb (n : List Byte) (i : Nat) : incrementNonce n i ≠ .ub := by
  induction i generalizing n with
  | zero => simp [incrementNonce]
  | succ i ih =>
    simp only [incrementNonce]
    split
    · simp
    · exact ih _

theorem ctr_noUb (c : BlockCipher) : NoUb (ctrStep c) := by
  intro st b
  unfold ctrStep
  cases hi : incrementNonce st c.blocksize with
  | ub => exact absurd hi (incrementNonce_noUb _ _)
  | fatal => simp
  | ok v => simp

/-- Every turn succeeds. -/
def Total (step : CStep) : Prop := ∀ st b, ∃ r, step st b = .ok r

theorem runSteps_total {step : CStep} (h : Total step) (bl : List (List Byte)) (st : List Byte) :
    ∃ r, runSteps step st bl = .ok r := by
  induction bl generalizing st with
  | nil => exact ⟨_, rfl⟩
  | cons b bl ih =>
    obtain ⟨v, hv⟩ := h st b
    obtain ⟨r, hr⟩ := ih v.1
    exact ⟨v.2 :: r, by simp [runSteps, hv, hr]⟩

theorem steps_total (c : BlockCipher) : Total (ecbEncStep c) ∧ Total (ecbDecStep c) ∧ Total (cbcEncStep c) ∧
    Total (cbcDecStep c) ∧ Total (ofbStep c) ∧ Total (cfbEncStep c) ∧ Total (cfbDecStep c) :=
  ⟨fun _ _ => ⟨_, rfl⟩, fun _ _ => ⟨_, rfl⟩, fun _ _ => ⟨_, rfl⟩, fun _ _ => ⟨_, rfl⟩, fun _ _ => ⟨_, rfl⟩,
    fun _ _ => ⟨_, rfl⟩, fun _ _ => ⟨_, rfl⟩⟩

theorem loadNonce_ok (c : CipherInfo) (h0 : 0 < c.cipher.blocksize)
    (h1 : c.cipher.blocksize ≤ maxCipherBlocksize) (hn : c.nonce.WF) :
    ∃ st, loadNonce c = .ok st ∧ st = c.nonce.datum.take c.cipher.blocksize ∧ st.length = c.cipher.blocksize := by
  have hw : c.nonce.length + maxCipherBlocksize ≤ c.nonce.datum.length := hn
  refine ⟨_, ?_, rfl, by rw [List.length_take]; omega⟩
  unfold loadNonce
  rw [if_neg (by omega), rdN_ok (by omega), List.drop_zero]

/-- The padding: random bytes, then their number. -/
def cipherPadding (c : CipherInfo) (s : StringInfo) : List Byte :=
  (List.range (c.cipher.blocksize - s.length % c.cipher.blocksize - 1)).map c.random ++
    [BitVec.ofNat 8 (c.cipher.blocksize - s.length % c.cipher.blocksize - 1)]

theorem padBuffer_ok (c : CipherInfo) (s : StringInfo) (h0 : 0 < c.cipher.blocksize)
    (h1 : c.cipher.blocksize ≤ maxCipherBlocksize) (hs : s.WF) :
    ∃ d q, padBuffer c s = .ok (d, q) ∧ d.length = s.datum.length ∧ d.take s.length = s.datum.take s.length ∧
      turns c.cipher.blocksize q = s.length / c.cipher.blocksize + 1 ∧
      c.cipher.blocksize * (s.length / c.cipher.blocksize + 1) ≤ s.length + c.cipher.blocksize ∧
      d.drop (c.cipher.blocksize * (s.length / c.cipher.blocksize + 1)) =
        s.datum.drop (c.cipher.blocksize * (s.length / c.cipher.blocksize + 1)) ∧
      d.take (c.cipher.blocksize * (s.length / c.cipher.blocksize + 1)) = s.bytes ++ cipherPadding c s := by
  have hw : s.length + maxCipherBlocksize ≤ s.datum.length := hs
  unfold cipherPadding
  generalize hbs : c.cipher.blocksize = bs at *
  generalize hp : bs - s.length % bs = pad
  have hmod := Nat.mod_lt s.length h0
  have hdm := Nat.div_add_mod s.length bs
  have hpad : 1 ≤ pad ∧ pad ≤ bs := by omega
  have hend : bs * (s.length / bs + 1) = s.length + pad := by rw [Nat.mul_succ]; omega
  obtain ⟨d1, hd1, hl1, ht1, hdr1, htk1⟩ : ∃ d1, wrN s.datum s.length ((List.range (pad - 1)).map c.random) = .ok d1 ∧
      d1.length = s.datum.length ∧ d1.take s.length = s.datum.take s.length ∧
      d1.drop (s.length + pad) = s.datum.drop (s.length + pad) ∧
      d1.take (s.length + (pad - 1)) = s.bytes ++ (List.range (pad - 1)).map c.random := by
    have hlen : ((List.range (pad - 1)).map c.random).length = pad - 1 := by simp
    have hw1 := wrN_ok (m := s.datum) (o := s.length) (s := (List.range (pad - 1)).map c.random)
      (by rw [hlen]; omega)
    refine ⟨_, hw1, wrN_length hw1, ?_, ?_, ?_⟩
    · rw [List.append_assoc, List.take_append_of_le_length (by rw [List.length_take]; omega), List.take_take,
        Nat.min_self]
    · rw [List.drop_append, List.drop_eq_nil_of_le (by
        rw [List.length_append, List.length_take, hlen]; omega), List.nil_append, List.drop_drop]
      congr 1
      rw [List.length_append, List.length_take, hlen]; omega
    · rw [List.take_append_of_le_length (by rw [List.length_append, List.length_take, hlen]; omega),
        List.take_of_length_le (by rw [List.length_append, List.length_take, hlen]; omega)]
      rfl
  have hw2 : wr d1 (s.length + (pad - 1)) (BitVec.ofNat 8 (pad - 1)) =
      .ok (d1.set (s.length + (pad - 1)) (BitVec.ofNat 8 (pad - 1))) := by
    unfold wr; rw [if_pos (by omega)]
  refine ⟨d1.set (s.length + (pad - 1)) (BitVec.ofNat 8 (pad - 1)), if pad = bs then s.length + bs else s.length,
    ?_, by simp [hl1], ?_, ?_, by omega, ?_, ?_⟩
  · unfold padBuffer
    rw [hbs, if_neg (by omega)]
    simp only [hp]
    rw [hd1, Res.ok_bind, hw2, Res.ok_bind]
  · rw [List.take_set_of_le (by omega), ht1]
  · unfold turns
    split
    · have : s.length % bs = 0 := by omega
      rw [show s.length + bs + bs - 1 = (bs - 1) + bs * (s.length / bs + 1) by rw [Nat.mul_succ]; omega,
        Nat.add_mul_div_left _ _ h0, Nat.div_eq_of_lt (by omega)]
      omega
    · rw [show s.length + bs - 1 = (s.length % bs - 1) + bs * (s.length / bs + 1) by rw [Nat.mul_succ]; omega,
        Nat.add_mul_div_left _ _ h0, Nat.div_eq_of_lt (by omega)]
      omega
  · rw [hend, List.drop_set_of_lt (by omega), hdr1]
  · rw [hend, show s.length + pad = s.length + (pad - 1) + 1 by omega, List.take_add_one, List.take_set_of_le (by omega),
      htk1, List.getElem?_set_self (by omega), List.append_assoc]
    rfl


/-! ### The modes in one form -/

def modeStride (mode : CipherMode) (c : BlockCipher) : Nat := if mode = .cfb then 1 else c.blocksize

def encStep (mode : CipherMode) (c : BlockCipher) : CStep :=
  match mode with
  | .cbc => cbcEncStep c | .cfb => cfbEncStep c | .ctr => ctrStep c | .ecb => ecbEncStep c | .ofb => ofbStep c

def decStep (mode : CipherMode) (c : BlockCipher) : CStep :=
  match mode with
  | .cbc => cbcDecStep c | .cfb => cfbDecStep c | .ctr => ctrStep c | .ecb => ecbDecStep c | .ofb => ofbStep c

/-- The register holds a block (ECB has no register). -/
def ModeInv (mode : CipherMode) (c : BlockCipher) (st : List Byte) : Prop :=
  mode = .ecb ∨ st.length = c.blocksize

theorem mode_keeps (mode : CipherMode) (c : BlockCipher) (h : c.Sized) (hp : 0 < c.blocksize) :
    KeepsSize (modeStride mode c) (ModeInv mode c) (encStep mode c) ∧
    KeepsSize (modeStride mode c) (ModeInv mode c) (decStep mode c) := by
  cases mode with
  | ecb =>
    have := ecb_keeps c h
    exact ⟨fun st b st' b' _ hb he => ⟨.inl rfl, (this.1 _ _ _ _ trivial hb he).2⟩,
      fun st b st' b' _ hb he => ⟨.inl rfl, (this.2 _ _ _ _ trivial hb he).2⟩⟩
  | cbc =>
    have := cbc_keeps c h
    constructor <;> intro st b st' b' hI hb he <;> rcases hI with hI | hI
    · cases hI
    · have := this.1 _ _ _ _ hI hb he; exact ⟨.inr this.1, this.2⟩
    · cases hI
    · have := this.2 _ _ _ _ hI hb he; exact ⟨.inr this.1, this.2⟩
  | cfb =>
    have := cfb_keeps c hp
    constructor <;> intro st b st' b' hI hb he <;> rcases hI with hI | hI
    · cases hI
    · have := this.1 _ _ _ _ hI hb he; exact ⟨.inr this.1, this.2⟩
    · cases hI
    · have := this.2 _ _ _ _ hI hb he; exact ⟨.inr this.1, this.2⟩
  | ctr =>
    have := ctr_keeps c h
    constructor <;> intro st b st' b' hI hb he <;> rcases hI with hI | hI
    · cases hI
    · have := this _ _ _ _ hI hb he; exact ⟨.inr this.1, this.2⟩
    · cases hI
    · have := this _ _ _ _ hI hb he; exact ⟨.inr this.1, this.2⟩
  | ofb =>
    have := ofb_keeps c h
    constructor <;> intro st b st' b' hI hb he <;> rcases hI with hI | hI
    · cases hI
    · have := this _ _ _ _ hI hb he; exact ⟨.inr this.1, this.2⟩
    · cases hI
    · have := this _ _ _ _ hI hb he; exact ⟨.inr this.1, this.2⟩

theorem mode_undoes (mode : CipherMode) (c : BlockCipher) (h : c.Sized) (hi : c.Invertible) :
    Undoes (modeStride mode c) (ModeInv mode c) (encStep mode c) (decStep mode c) := by
  intro st b st' b' hI hb he
  cases mode with
  | ecb => exact ecb_undoes c hi _ _ _ _ trivial hb he
  | cbc => exact cbc_undoes c hi _ _ _ _ (hI.resolve_left (by decide)) hb he
  | cfb => exact cfb_undoes c _ _ _ _ (hI.resolve_left (by decide)) hb he
  | ctr => exact ctr_undoes c h _ _ _ _ (hI.resolve_left (by decide)) hb he
  | ofb => exact ofb_undoes c h _ _ _ _ (hI.resolve_left (by decide)) hb he

theorem mode_total (mode : CipherMode) (c : BlockCipher) (h : mode ≠ .ctr) :
    Total (encStep mode c) ∧ Total (decStep mode c) := by
  obtain ⟨h1, h2, h3, h4, h5, h6, h7⟩ := steps_total c
  cases mode with
  | ctr => exact absurd rfl h
  | ecb => exact ⟨h1, h2⟩
  | cbc => exact ⟨h3, h4⟩
  | ofb => exact ⟨h5, h5⟩
  | cfb => exact ⟨h6, h7⟩

theorem total_noUb {step : CStep} (h : Total step) : NoUb step := by
  intro st b hu
  obtain ⟨r, hr⟩ := h st b
  rw [hu] at hr; cases hr

theorem mode_noUb (mode : CipherMode) (c : BlockCipher) : NoUb (encStep mode c) ∧ NoUb (decStep mode c) := by
  by_cases h : mode = .ctr
  · subst h; exact ⟨ctr_noUb c, ctr_noUb c⟩
  · exact ⟨total_noUb (mode_total mode c h).1, total_noUb (mode_total mode c h).2⟩

/-- The register a mode starts with. -/
def startReg (mode : CipherMode) (c : CipherInfo) : List Byte :=
  if mode = .ecb then [] else c.nonce.datum.take c.cipher.blocksize

/-- Number of turns of an encipherment. -/
def encTurns (mode : CipherMode) (c : BlockCipher) (len : Nat) : Nat :=
  if mode = .cfb then len else len / c.blocksize + 1

theorem startReg_inv (mode : CipherMode) (c : CipherInfo) (h : c.Ready) : ModeInv mode c.cipher (startReg mode c) := by
  unfold ModeInv startReg
  split
  · left; assumption
  · right
    have hw : c.nonce.length + maxCipherBlocksize ≤ c.nonce.datum.length := h.nonce
    have := h.le
    rw [List.length_take]; omega

theorem runOver_eq {stride : Nat} {I : List Byte → Prop} {step : CStep} (hs : 0 < stride)
    (hk : KeepsSize stride I step) (st : List Byte) (hI : I st) (s : StringInfo)
    (hm : stride * turns stride s.length ≤ s.datum.length) :
    runOver stride s step st =
      (runSteps step st (chunks stride (turns stride s.length) s.datum) >>= fun r =>
        .ok { s with datum := r.flatten ++ s.datum.drop (stride * turns stride s.length) }) := by
  unfold runOver
  rw [cipherLoop_buffer hs hk s.length st s.datum hI hm]
  cases runSteps step st (chunks stride (turns stride s.length) s.datum) <;> rfl

theorem decipherMode_eq (mode : CipherMode) (c : CipherInfo) (h : c.Ready) (s : StringInfo) (hs : s.WF) :
    decipherCipher mode c s =
      (runSteps (decStep mode c.cipher) (startReg mode c)
          (chunks (modeStride mode c.cipher) (turns (modeStride mode c.cipher) s.length) s.datum) >>= fun r =>
        .ok { s with datum := r.flatten ++
          s.datum.drop (modeStride mode c.cipher * turns (modeStride mode c.cipher) s.length) }) := by
  have hw : s.length + maxCipherBlocksize ≤ s.datum.length := hs
  have hp := h.pos
  have hle := h.le
  have hpos : 0 < modeStride mode c.cipher := by unfold modeStride; split <;> omega
  have hle' : modeStride mode c.cipher ≤ maxCipherBlocksize := by unfold modeStride; split <;> omega
  have hroom := turns_lt (modeStride mode c.cipher) s.length hpos
  rw [← runOver_eq hpos (mode_keeps mode c.cipher h.sized h.pos).2 _ (startReg_inv mode c h) s (by omega)]
  obtain ⟨st, h1, rfl, _⟩ := loadNonce_ok c h.pos h.le h.nonce
  cases mode <;> simp only [decipherCipher, h1, Res.ok_bind] <;> rfl

theorem encipherMode_eq (mode : CipherMode) (c : CipherInfo) (h : c.Ready) (s : StringInfo) (hs : s.WF) :
    ∃ d, d.length = s.datum.length ∧ d.take s.length = s.datum.take s.length ∧
      modeStride mode c.cipher * encTurns mode c.cipher s.length ≤ s.length + c.cipher.blocksize ∧
      s.length ≤ modeStride mode c.cipher * encTurns mode c.cipher s.length ∧
      d.drop (modeStride mode c.cipher * encTurns mode c.cipher s.length) =
        s.datum.drop (modeStride mode c.cipher * encTurns mode c.cipher s.length) ∧
      d.take (modeStride mode c.cipher * encTurns mode c.cipher s.length) =
        s.bytes ++ (if mode = .cfb then [] else cipherPadding c s) ∧
      encipherCipher mode c s =
      (runSteps (encStep mode c.cipher) (startReg mode c)
          (chunks (modeStride mode c.cipher) (encTurns mode c.cipher s.length) d) >>= fun r =>
        .ok { s with datum := r.flatten ++
          s.datum.drop (modeStride mode c.cipher * encTurns mode c.cipher s.length) }) := by
  have hw : s.length + maxCipherBlocksize ≤ s.datum.length := hs
  have hp := h.pos
  have hle := h.le
  obtain ⟨st, h1, hst, _⟩ := loadNonce_ok c h.pos h.le h.nonce
  by_cases hc : mode = .cfb
  · subst hc
    refine ⟨s.datum, rfl, rfl, ?_, ?_, rfl, by simp [modeStride, encTurns, StringInfo.bytes], ?_⟩
    · simp [modeStride, encTurns]
    · simp [modeStride, encTurns]
    have := runOver_eq (stride := 1) (by decide) (mode_keeps .cfb c.cipher h.sized h.pos).1 _
      (startReg_inv .cfb c h) s (by rw [turns_one]; omega)
    rw [turns_one] at this
    simp only [encipherCipher, h1, Res.ok_bind]
    rw [hst]
    exact this
  · obtain ⟨d, q, hpad, hl, ht, hturn, hend, hdrop, hpd⟩ := padBuffer_ok c s h.pos h.le hs
    have hms : modeStride mode c.cipher = c.cipher.blocksize := if_neg hc
    have het : encTurns mode c.cipher s.length = s.length / c.cipher.blocksize + 1 := if_neg hc
    have hlen : s.length ≤ c.cipher.blocksize * (s.length / c.cipher.blocksize + 1) := by
      have := Nat.div_add_mod s.length c.cipher.blocksize
      have := Nat.mod_lt s.length h.pos
      rw [Nat.mul_succ]; omega
    have hkeep := (mode_keeps mode c.cipher h.sized h.pos).1
    rw [hms] at hkeep
    rw [hms, het]
    refine ⟨d, hl, ht, hend, hlen, hdrop, by rw [if_neg hc, hpd], ?_⟩
    have hloop := cipherLoop_buffer h.pos hkeep q _ d (startReg_inv mode c h) (by rw [hturn, hl]; omega)
    rw [hturn, hdrop] at hloop
    have key : encipherPadded c s (encStep mode c.cipher) (startReg mode c) = 
        (runSteps (encStep mode c.cipher) (startReg mode c)
          (chunks c.cipher.blocksize (s.length / c.cipher.blocksize + 1) d) >>= fun r =>
        .ok { s with datum := r.flatten ++
          s.datum.drop (c.cipher.blocksize * (s.length / c.cipher.blocksize + 1)) }) := by
      unfold encipherPadded
      rw [hpad, Res.ok_bind]
      simp only [hloop]
      cases runSteps (encStep mode c.cipher) (startReg mode c)
          (chunks c.cipher.blocksize (s.length / c.cipher.blocksize + 1) d) <;> rfl
    rw [← key]
    subst hst
    cases mode with
    | cfb => exact absurd rfl hc
    | _ => simp only [encipherCipher, h1, Res.ok_bind] <;> rfl


/-! ### Prefixes -/

theorem chunks_flatten_append (stride : Nat) (r : List (List Byte)) (x : List Byte)
    (hr : ∀ b ∈ r, b.length = stride) : ∀ j, j ≤ r.length → chunks stride j (r.flatten ++ x) = r.take j := by
  induction r with
  | nil => intro j hj; simp at hj; subst hj; rfl
  | cons b r ih =>
    intro j hj
    cases j with
    | zero => rfl
    | succ j =>
      have hb := hr b (by simp)
      rw [chunks, List.take_succ_cons, List.flatten_cons, List.append_assoc, ← hb, List.take_left, List.drop_left, hb,
        ih (fun y hy => hr y (by simp [hy])) j (by simpa using hj)]

/-- A step that adds a keystream which does not depend on the data. -/
def Stream (stride : Nat) (I : List Byte → Prop) (step : CStep) (f : List Byte → Res (List Byte × List Byte)) : Prop :=
  ∀ st, I st → (∀ b, step st b = (f st >>= fun v => .ok (v.1, xorBlock b v.2))) ∧
    ∀ v, f st = .ok v → I v.1 ∧ v.2.length = stride

theorem stream_prefix {stride : Nat} {I : List Byte → Prop} {step : CStep}
    {f : List Byte → Res (List Byte × List Byte)} (hf : Stream stride I step f) (bl : List (List Byte)) :
    ∀ (bl' : List (List Byte)) (n : Nat) (st : List Byte) (r : List (List Byte)), I st → bl'.length = bl.length →
      (∀ b ∈ bl, b.length = stride) → (∀ b ∈ bl', b.length = stride) →
      bl.flatten.take n = bl'.flatten.take n → runSteps step st bl = .ok r →
      ∃ r', runSteps step st bl' = .ok r' ∧ r'.flatten.take n = r.flatten.take n := by
  induction bl with
  | nil =>
    intro bl' n st r _ hl _ _ _ h
    cases h
    rw [List.length_nil] at hl
    rw [List.eq_nil_of_length_eq_zero hl]
    exact ⟨[], rfl, rfl⟩
  | cons b bl ih =>
    intro bl' n st r hI hl hb hb' hn h
    obtain ⟨b', bl', rfl⟩ : ∃ x y, bl' = x :: y := by
      cases bl' with
      | nil => simp at hl
      | cons x y => exact ⟨x, y, rfl⟩
    obtain ⟨hs, hk⟩ := hf st hI
    simp only [runSteps, hs] at h ⊢
    cases hv : f st with
    | ub => simp [hv] at h
    | fatal => simp [hv] at h
    | ok v =>
      obtain ⟨hI', hvl⟩ := hk v hv
      simp only [hv, Res.ok_bind] at h ⊢
      cases hr : runSteps step v.1 bl with
      | ub => simp [hr] at h
      | fatal => simp [hr] at h
      | ok w =>
        simp only [hr, Res.ok_bind, Res.ok.injEq] at h
        subst h
        have e1 := hb b (by simp)
        have e2 := hb' b' (by simp)
        simp only [List.flatten_cons] at hn
        rw [List.take_append, List.take_append, e1, e2] at hn
        have hlen : (b.take n).length = (b'.take n).length := by simp [e1, e2]
        obtain ⟨p1, p2⟩ := List.append_inj hn hlen
        obtain ⟨r', hr', hpre⟩ := ih bl' (n - stride) v.1 w hI' (by simpa using hl) (fun x hx => hb x (by simp [hx]))
          (fun x hx => hb' x (by simp [hx])) p2 hr
        refine ⟨xorBlock b' v.2 :: r', by rw [hr']; rfl, ?_⟩
        rw [List.flatten_cons, List.flatten_cons, List.take_append, List.take_append, xorBlock_length, xorBlock_length,
          e1, e2, hvl, Nat.min_self, hpre]
        congr 1
        simp only [xorBlock, List.take_zipWith, p1]

theorem ctr_stream (c : BlockCipher) (h : c.Sized) :
    Stream c.blocksize (fun st => st.length = c.blocksize) (ctrStep c)
      (fun st => incrementNonce st c.blocksize >>= fun st' => .ok (st', c.encipher st)) := by
  intro st hst
  constructor
  · intro b
    simp only [ctrStep]
    cases incrementNonce st c.blocksize <;> rfl
  · intro v hv
    cases hi : incrementNonce st c.blocksize with
    | ub => simp [hi] at hv
    | fatal => simp [hi] at hv
    | ok w =>
      simp only [hi, Res.ok_bind, Res.ok.injEq] at hv
      subst hv
      exact ⟨(incrementNonce_length _ _ _ hi).trans hst, (h st hst).1⟩

theorem ofb_stream (c : BlockCipher) (h : c.Sized) :
    Stream c.blocksize (fun st => st.length = c.blocksize) (ofbStep c)
      (fun st => .ok (c.encipher st, c.encipher st)) := by
  intro st hst
  refine ⟨fun b => rfl, ?_⟩
  intro v hv
  cases hv
  exact ⟨(h st hst).1, (h st hst).1⟩

/-! ### Single bytes -/

theorem flatten_getD {stride : Nat} (hs : 0 < stride) (r : List (List Byte)) (hr : ∀ b ∈ r, b.length = stride) (x : List Byte) :
    ∀ i, i < stride * r.length → (r.flatten ++ x).getD i 0 = (r.getD (i / stride) []).getD (i % stride) 0 := by
  induction r with
  | nil => intro i hi; simp at hi
  | cons b r ih =>
    intro i hi
    have hb := hr b (by simp)
    rw [List.length_cons, Nat.mul_succ] at hi
    rw [List.flatten_cons, List.append_assoc, List.getD_eq_getElem?_getD]
    by_cases h : i < stride
    · rw [Nat.div_eq_of_lt h, Nat.mod_eq_of_lt h, List.getElem?_append_left (by omega)]
      rfl
    · rw [List.getElem?_append_right (by omega), ← List.getD_eq_getElem?_getD, hb,
        ih (fun y hy => hr y (by simp [hy])) _ (by omega)]
      have e : i = (i - stride) + stride := by omega
      have e1 : i / stride = (i - stride) / stride + 1 := by
        conv => lhs; rw [e, Nat.add_div_right _ hs]
      have e2 : i % stride = (i - stride) % stride := by
        conv => lhs; rw [e, Nat.add_mod_right]
      rw [e1, e2]
      rfl

theorem chunks_getD {stride : Nat} (hs : 0 < stride) (k : Nat) (m : List Byte) (h : stride * k ≤ m.length) (i : Nat)
    (hi : i < stride * k) : ((chunks stride k m).getD (i / stride) []).getD (i % stride) 0 = m.getD i 0 := by
  rw [← flatten_getD hs _ (chunks_size _ _ _ h) (m.drop (stride * k)) i (by rwa [chunks_length]), chunks_flatten,
    List.take_append_drop]

theorem xorBlock_getD (a b : List Byte) (h : a.length = b.length) (i : Nat) :
    (xorBlock a b).getD i 0 = a.getD i 0 ^^^ b.getD i 0 := by
  simp only [xorBlock, List.getD_eq_getElem?_getD, List.getElem?_zipWith]
  by_cases hi : i < a.length
  · rw [List.getElem?_eq_getElem hi, List.getElem?_eq_getElem (h ▸ hi)]; rfl
  · rw [List.getElem?_eq_none (by omega), List.getElem?_eq_none (by omega)]; rfl

/-- The turns of a stream mode, one by one: registers and keystream blocks. -/
theorem stream_run {stride : Nat} {I : List Byte → Prop} {step : CStep}
    {f : List Byte → Res (List Byte × List Byte)} (hf : Stream stride I step f) (bl : List (List Byte)) :
    ∀ (st : List Byte) (r : List (List Byte)), I st → (∀ b ∈ bl, b.length = stride) → runSteps step st bl = .ok r →
      ∃ reg : Nat → List Byte, reg 0 = st ∧ ∀ i, i < bl.length → ∃ ks, I (reg i) ∧ f (reg i) = .ok (reg (i + 1), ks) ∧
        ks.length = stride ∧ r.getD i [] = xorBlock (bl.getD i []) ks := by
  induction bl with
  | nil => intro st r _ _ _; exact ⟨fun _ => st, rfl, by simp⟩
  | cons b bl ih =>
    intro st r hI hb h
    obtain ⟨hs, hk⟩ := hf st hI
    simp only [runSteps, hs] at h
    cases hv : f st with
    | ub => simp [hv] at h
    | fatal => simp [hv] at h
    | ok v =>
      obtain ⟨hI', hvl⟩ := hk v hv
      simp only [hv, Res.ok_bind] at h
      cases hr : runSteps step v.1 bl with
      | ub => simp [hr] at h
      | fatal => simp [hr] at h
      | ok w =>
        simp only [hr, Res.ok_bind, Res.ok.injEq] at h
        subst h
        obtain ⟨reg, h0, hreg⟩ := ih v.1 w hI' (fun x hx => hb x (by simp [hx])) hr
        refine ⟨fun i => match i with | 0 => st | i + 1 => reg i, rfl, ?_⟩
        intro i hi
        cases i with
        | zero => exact ⟨v.2, hI, by show f st = .ok (reg 0, v.2); rw [h0, hv], hvl, rfl⟩
        | succ i => exact hreg i (by simpa using hi)

/-! ### The counter -/

open Spec in
theorem beNat_append (a : List Byte) (x : Byte) : beNat (a ++ [x]) = 256 * beNat a + x.toNat := by
  simp [beNat, List.foldl_append]

open Spec in
theorem incrementNonce_spec (i : Nat) : ∀ (p z : List Byte), p.length = i →
    (incrementNonce (p ++ z) i = .fatal ∧ beNat p + 1 = 256 ^ i) ∨
    ∃ p', incrementNonce (p ++ z) i = .ok (p' ++ z) ∧ p'.length = i ∧ beNat p' = beNat p + 1 ∧ beNat p' < 256 ^ i := by
  have lt : ∀ p : List Byte, beNat p < 256 ^ p.length := by
    intro p
    induction h : p.length generalizing p with
    | zero => rw [List.eq_nil_of_length_eq_zero h]; decide
    | succ n ih =>
      obtain ⟨q, x, rfl⟩ : ∃ q x, p = q ++ [x] := by
        rcases List.eq_nil_or_concat p with h' | ⟨q, x, h'⟩
        · simp [h'] at h
        · exact ⟨q, x, by simpa using h'⟩
      have := ih q (by simpa using h)
      rw [beNat_append, Nat.pow_succ]
      have := x.isLt
      omega
  induction i with
  | zero =>
    intro p z hp
    rw [List.eq_nil_of_length_eq_zero hp]
    left; exact ⟨rfl, by decide⟩
  | succ i ih =>
    intro p z hp
    obtain ⟨q, x, rfl⟩ : ∃ q x, p = q ++ [x] := by
      rcases List.eq_nil_or_concat p with h' | ⟨q, x, h'⟩
      · simp [h'] at hp
      · exact ⟨q, x, by simpa using h'⟩
    have hq : q.length = i := by simpa using hp
    have hlq := lt q
    rw [hq] at hlq
    have hget : (q ++ [x] ++ z).getD i 0 = x := by
      rw [List.getD_eq_getElem?_getD, List.append_assoc, ← hq, List.getElem?_append_right (by omega)]; simp
    have hset : ∀ y, (q ++ [x] ++ z).set i y = q ++ [y] ++ z := by
      intro y
      rw [List.append_assoc, ← hq, List.set_append_right _ _ (by omega)]; simp
    rw [incrementNonce, hget]
    simp only [hset]
    have hxl := x.isLt
    by_cases hb : x + 1 = 0
    · have hx : x.toNat = 255 := by
        have := congrArg BitVec.toNat hb
        rw [BitVec.toNat_add] at this
        have e : (1 : Byte).toNat = 1 := rfl
        have e0 : (0 : Byte).toNat = 0 := rfl
        rw [e, e0] at this
        omega
      rw [if_neg (by rw [hb]; decide), hb, List.append_assoc]
      rcases ih q ([0] ++ z) hq with ⟨h1, h2⟩ | ⟨p', h1, h2, h3, h4⟩
      · left
        refine ⟨h1, ?_⟩
        rw [beNat_append, Nat.pow_succ, ← h2, hx]; omega
      · right
        refine ⟨p' ++ [0], by rw [h1, List.append_assoc], by simp [h2], ?_, ?_⟩
        · rw [beNat_append, beNat_append, h3, hx]
          have e0 : (0 : Byte).toNat = 0 := rfl
          rw [e0]; omega
        · rw [beNat_append, Nat.pow_succ]
          have e0 : (0 : Byte).toNat = 0 := rfl
          rw [e0]; omega
    · rw [if_pos hb]
      have hx : (x + 1).toNat = x.toNat + 1 := by
        rw [BitVec.toNat_add]
        have e : (1 : Byte).toNat = 1 := rfl
        rw [e]
        rcases Nat.lt_or_ge (x.toNat + 1) (2 ^ 8) with h | h
        · exact Nat.mod_eq_of_lt h
        · exact absurd (BitVec.eq_of_toNat_eq (by
            rw [BitVec.toNat_add, e]; have : x.toNat + 1 = 256 := by omega
            rw [this]; rfl)) hb
      right
      refine ⟨q ++ [x + 1], rfl, by simp [hq], ?_, ?_⟩
      · rw [beNat_append, beNat_append, hx]; omega
      · rw [beNat_append, Nat.pow_succ, hx]
        have : (x + 1).toNat < 2 ^ 8 := (x + 1).isLt
        omega

end Wizard

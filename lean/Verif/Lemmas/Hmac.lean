import Verif.Lemmas.HashInfo
/-! HMAC: what the object holds between the calls. -/
namespace Wizard
open Spec Spec.Hash

/-- The block size of each type in the library. -/
def blockSize : HashType → Nat
  | .crc64 => 32
  | .sha2384 | .sha2512 => 128
  | _ => 64

structure HmacShape (lsb : Bool) (t : HashType) (k : HmacInfo) : Prop where
  hash : HashShape lsb t k.hashInfo
  size : k.digest.length = hashSize t
  wf : k.digest.WF
  finalSize : k.finalNonce.length = blockSize t
  finalWF : k.finalNonce.WF
  initialSize : k.initialNonce.length = blockSize t
  initialWF : k.initialNonce.WF

/-- After Initialize with a key whose padded form is `p` and updates with `m`. -/
structure HmacHolds (lsb : Bool) (t : HashType) (p m : List Byte) (k : HmacInfo) : Prop where
  hash : HashHolds lsb t k.hashInfo (p.map (· ^^^ 0x36) ++ m)
  size : k.digest.length = hashSize t
  wf : k.digest.WF
  finalSize : k.finalNonce.length = blockSize t
  finalWF : k.finalNonce.WF
  final : k.finalNonce.bytes = p.map (· ^^^ 0x5c)
  initialSize : k.initialNonce.length = blockSize t
  initialWF : k.initialNonce.WF
  initial : k.initialNonce.bytes = p.map (· ^^^ 0x36)

/-- The object has been given a key whose padded form is `p`. -/
structure HmacKeyed (lsb : Bool) (t : HashType) (p : List Byte) (k : HmacInfo) : Prop extends HmacShape lsb t k where
  final : k.finalNonce.bytes = p.map (· ^^^ 0x5c)
  initial : k.initialNonce.bytes = p.map (· ^^^ 0x36)

theorem handle_blocksize {lsb : Bool} {t : HashType} {x : HashHandle} (h : HandleShape lsb t x) :
    hashBlocksize x = blockSize t := by
  cases t <;> cases x <;> simp only [HandleShape] at h <;> first | exact h.elim | rfl

theorem handle_digestsize {lsb : Bool} {t : HashType} {x : HashHandle} (h : HandleShape lsb t x) :
    hashDigestsize x = hashSize t := by
  cases t <;> cases x <;> simp only [HandleShape] at h <;> first | exact h.elim | exact h.1 | rfl

theorem blockSize_le (t : HashType) : blockSize t ≤ 128 := by cases t <;> decide
theorem hashSize_le_blockSize (t : HashType) : hashSize t ≤ blockSize t := by cases t <;> decide
theorem small_lt_updateLimit (t : HashType) {n : Nat} (h : n ≤ 128) : n < updateLimit t := by
  cases t <;> simp only [updateLimit] <;> omega

theorem acquireHmac_shape (lsb : Bool) (junk : HashJunk) (t : HashType) (ht : HashType.Supported t) :
    ∃ k, acquireHmac lsb junk t = .ok k ∧ HmacShape lsb t k := by
  obtain ⟨h, h1, h2⟩ := acquireHash_shape lsb junk t ht
  have a := hashSize_le t
  have b := blockSize_le t
  unfold acquireHmac
  rw [h1, Res.ok_bind, handle_digestsize h2.shape, handle_blocksize h2.shape, acquireStringInfo_small (by omega), Res.ok_bind,
    acquireStringInfo_small (by omega), Res.ok_bind, Res.ok_bind]
  exact ⟨_, rfl, h2, rfl, wf_replicate _ _, rfl, wf_replicate _ _, rfl, wf_replicate _ _⟩

theorem setStringInfo_full {s src : StringInfo} (hs : s.WF) (hsrc : src.WF) (hl : src.length ≤ s.length) :
    ∃ r, setStringInfo s src = .ok r ∧ r.length = s.length ∧ r.WF ∧
      r.bytes = src.bytes ++ List.replicate (s.length - src.length) 0 := by
  obtain ⟨r, h1, h2, h3, h4, _⟩ := setStringInfo_spec s src hs hsrc
  refine ⟨r, h1, h2, ?_, ?_⟩
  · show r.length + _ ≤ r.datum.length
    rw [h2, h3]; exact hs
  · rw [h4, List.take_of_length_le]
    rw [StringInfo.bytes_length hsrc]; exact hl

theorem xorStringInfo_ok {s : StringInfo} (hs : s.WF) (x : Byte) :
    ∃ r, xorStringInfo s x = .ok r ∧ r.length = s.length ∧ r.WF ∧ r.bytes = s.bytes.map (· ^^^ x) := by
  have h : s.length + maxCipherBlocksize ≤ s.datum.length := hs
  unfold xorStringInfo
  rw [rdN_ok (by omega), Res.ok_bind, wrN_ok (by simp; omega), Res.ok_bind]
  refine ⟨_, rfl, rfl, ?_, ?_⟩
  · show s.length + maxCipherBlocksize ≤ _
    simp; omega
  · show List.take s.length _ = _
    rw [List.take_zero, List.nil_append, List.drop_zero]
    rw [List.take_left' (by simp; omega)]; rfl

theorem hashFn_length_of {lsb : Bool} {t : HashType} {h : HashInfo} (hh : HashShape lsb t h) :
    h.digest.bytes.length = hashSize t := by rw [StringInfo.bytes_length hh.wf, hh.size]

theorem hmacKey_holds {lsb : Bool} {t : HashType} {fuel : Nat} {k : HmacInfo} (hk : HmacShape lsb t k) {key : StringInfo}
    (hw : key.WF) (hl : key.length < updateLimit t) (hf : key.length < fuel) :
    ∃ i h, hmacKey lsb fuel k key = .ok (i, h) ∧ i.length = blockSize t ∧ i.WF ∧
      i.bytes = hmacPad (hashFn lsb t) (blockSize t) key.bytes ∧ HashShape lsb t h := by
  obtain ⟨i0, a1, a2, a3, _⟩ := resetStringInfo_ok k.initialNonce hk.initialWF
  rw [hk.initialSize] at a2
  have hb := StringInfo.bytes_length hw
  unfold hmacKey
  rw [a1, Res.ok_bind, a2]
  by_cases hc : key.length ≤ blockSize t
  · obtain ⟨i, b1, b2, b3, b4⟩ := setStringInfo_full a3 hw (by rw [a2]; exact hc)
    rw [if_pos hc, b1, Res.ok_bind]
    refine ⟨_, _, rfl, b2.trans a2, b3, ?_, hk.hash⟩
    simp only [hmacPad, hb, if_pos hc]
    rw [b4, a2]
  · obtain ⟨h1, e1, g1⟩ := initializeHash_holds hk.hash
    obtain ⟨h2, e2, g2⟩ := updateHash_holds g1 hw hl hf
    obtain ⟨h3, e3, g3, g4⟩ := finalizeHash_holds g2
    have hs := hashFn_length_of g3
    obtain ⟨i, b1, b2, b3, b4⟩ := setStringInfo_full a3 g3.wf (by rw [a2, g3.size]; exact hashSize_le_blockSize t)
    rw [if_neg hc, e1, Res.ok_bind, e2, Res.ok_bind, e3, Res.ok_bind, b1, Res.ok_bind]
    refine ⟨_, _, rfl, b2.trans a2, b3, ?_, g3⟩
    rw [List.nil_append] at g4
    simp only [hmacPad, hb, if_neg hc]
    rw [b4, a2, g4, ← g4, hs, g3.size]

theorem initializeHmac_holds {lsb : Bool} {t : HashType} {fuel : Nat} {k : HmacInfo} (hk : HmacShape lsb t k)
    {key : StringInfo} (hw : key.WF) (hl : key.length < updateLimit t) (hf : key.length < fuel) (hf2 : 128 < fuel) :
    ∃ k', initializeHmac lsb fuel k key = .ok k' ∧
      HmacHolds lsb t (hmacPad (hashFn lsb t) (blockSize t) key.bytes) [] k' := by
  obtain ⟨i, h, a1, a2, a3, a4, a5⟩ := hmacKey_holds hk hw hl hf
  obtain ⟨f, b1, b2, b3, b4⟩ := setStringInfo_full hk.finalWF a3 (by rw [a2, hk.finalSize]; exact Nat.le_refl _)
  obtain ⟨i', c1, c2, c3, c4⟩ := xorStringInfo_ok a3 0x36
  obtain ⟨f', d1, d2, d3, d4⟩ := xorStringInfo_ok b3 0x5c
  rw [hk.finalSize, a2, Nat.sub_self, List.replicate_zero, List.append_nil] at b4
  have hB := blockSize_le t
  have e0 : HashShape lsb t h := a5
  obtain ⟨h1, e1, g1⟩ := initializeHash_holds e0
  obtain ⟨h2, e2, g2⟩ := updateHash_holds g1 c3 (by rw [c2, a2]; exact small_lt_updateLimit t hB)
    (by rw [c2, a2]; omega : i'.length < fuel)
  unfold initializeHmac resetHmac
  simp only [a1, b1, c1, d1, e1, e2, Res.ok_bind]
  refine ⟨_, rfl, ?_, hk.size, hk.wf, by rw [d2, b2, hk.finalSize], d3, by rw [d4, b4, a4], by rw [c2, a2], c3,
    by rw [c4, a4]⟩
  rw [List.nil_append, c4, a4] at g2
  rw [List.append_nil]; exact g2

theorem resetHmac_holds {lsb : Bool} {t : HashType} {fuel : Nat} {p : List Byte} {k : HmacInfo} (hk : HmacKeyed lsb t p k)
    (hf : 128 < fuel) : ∃ k', resetHmac lsb fuel k = .ok k' ∧ HmacHolds lsb t p [] k' := by
  have hB := blockSize_le t
  obtain ⟨h1, e1, g1⟩ := initializeHash_holds hk.hash
  obtain ⟨h2, e2, g2⟩ := updateHash_holds g1 hk.initialWF (by rw [hk.initialSize]; exact small_lt_updateLimit t hB)
    (by rw [hk.initialSize]; omega : k.initialNonce.length < fuel)
  unfold resetHmac
  rw [e1, Res.ok_bind, e2, Res.ok_bind]
  refine ⟨_, rfl, ?_, hk.size, hk.wf, hk.finalSize, hk.finalWF, hk.final, hk.initialSize, hk.initialWF, hk.initial⟩
  rw [List.nil_append, hk.initial] at g2
  rw [List.append_nil]; exact g2

theorem updateHmac_holds {lsb : Bool} {t : HashType} {fuel : Nat} {p m : List Byte} {k : HmacInfo}
    (hk : HmacHolds lsb t p m k) {d : StringInfo} (hd : d.WF) (hl : d.length < updateLimit t) (hf : d.length < fuel) :
    ∃ k', updateHmac lsb fuel k d = .ok k' ∧ HmacHolds lsb t p (m ++ d.bytes) k' := by
  obtain ⟨h1, e1, g1⟩ := updateHash_holds hk.hash hd hl hf
  rw [List.append_assoc] at g1
  unfold updateHmac
  rw [e1, Res.ok_bind]
  exact ⟨_, rfl, g1, hk.size, hk.wf, hk.finalSize, hk.finalWF, hk.final, hk.initialSize, hk.initialWF, hk.initial⟩

theorem HmacHolds.keyed {lsb : Bool} {t : HashType} {p m : List Byte} {k : HmacInfo} (hk : HmacHolds lsb t p m k) :
    HmacKeyed lsb t p k :=
  ⟨⟨hk.hash.shape, hk.size, hk.wf, hk.finalSize, hk.finalWF, hk.initialSize, hk.initialWF⟩, hk.final, hk.initial⟩

theorem hmacUpdates_holds {lsb : Bool} {t : HashType} {fuel : Nat} {p : List Byte} (ds : List StringInfo) :
    ∀ {k : HmacInfo} {m : List Byte}, HmacHolds lsb t p m k → UpdatesOK t fuel ds →
    ∃ k', hmacUpdates lsb fuel k ds = .ok k' ∧ HmacHolds lsb t p (m ++ allBytes ds) k' := by
  induction ds with
  | nil => intro k m hh _; exact ⟨k, rfl, by simpa [allBytes] using hh⟩
  | cons d ds ih =>
    intro k m hh hds
    obtain ⟨w, l, f⟩ := hds d (List.mem_cons_self ..)
    obtain ⟨h1, e1, g1⟩ := updateHash_holds hh.hash w l f
    rw [List.append_assoc] at g1
    obtain ⟨h2, e2, g2⟩ := ih (k := { k with hashInfo := h1 })
      ⟨g1, hh.size, hh.wf, hh.finalSize, hh.finalWF, hh.final, hh.initialSize, hh.initialWF, hh.initial⟩
      fun x hx => hds x (List.mem_cons_of_mem _ hx)
    refine ⟨h2, by rw [hmacUpdates, updateHmac, e1]; exact e2, ?_⟩
    rw [List.append_assoc] at g2; exact g2

theorem finalizeHmac_holds {lsb : Bool} {t : HashType} {fuel : Nat} {p m : List Byte} {k : HmacInfo}
    (hk : HmacHolds lsb t p m k) (hf : 128 < fuel) :
    ∃ k', finalizeHmac lsb fuel k = .ok k' ∧ HmacKeyed lsb t p k' ∧
      k'.digest.bytes = hashFn lsb t (p.map (· ^^^ 0x5c) ++ hashFn lsb t (p.map (· ^^^ 0x36) ++ m)) := by
  have hB := blockSize_le t
  have hS := hashSize_le t
  obtain ⟨h1, a1, a2, a3⟩ := finalizeHash_holds hk.hash
  obtain ⟨d, b1, b2, b3, b4⟩ := setStringInfo_full hk.wf a2.wf (by rw [a2.size, hk.size]; exact Nat.le_refl _)
  rw [hk.size] at b2 b4
  rw [a2.size, Nat.sub_self, List.replicate_zero, List.append_nil, a3] at b4
  obtain ⟨h2, c1, c2⟩ := initializeHash_holds a2
  obtain ⟨h3, d1, d2⟩ := updateHash_holds c2 hk.finalWF (by rw [hk.finalSize]; exact small_lt_updateLimit t hB)
    (by rw [hk.finalSize]; omega : k.finalNonce.length < fuel)
  obtain ⟨h4, e1, e2⟩ := updateHash_holds d2 b3 (by rw [b2]; exact small_lt_updateLimit t (by omega)) (by omega : d.length < fuel)
  obtain ⟨h5, f1, f2, f3⟩ := finalizeHash_holds e2
  obtain ⟨d', g1, g2, g3, g4⟩ := setStringInfo_full b3 f2.wf (by rw [f2.size, b2]; exact Nat.le_refl _)
  unfold finalizeHmac
  simp only [a1, b1, c1, d1, e1, f1, g1, Res.ok_bind]
  refine ⟨_, rfl, ⟨⟨f2, by rw [g2, b2], g3, hk.finalSize, hk.finalWF, hk.initialSize, hk.initialWF⟩, hk.final, hk.initial⟩, ?_⟩
  show d'.bytes = _
  rw [g4, f2.size, b2, Nat.sub_self, List.replicate_zero, List.append_nil, f3, List.nil_append, hk.final, b4]

/-- The strings of one use of an HMAC object. -/
def HmacUseOK (t : HashType) (fuel : Nat) (x : StringInfo × List StringInfo) : Prop := UpdatesOK t fuel (x.1 :: x.2)

theorem hmacSession_holds {lsb : Bool} {t : HashType} {fuel : Nat} (hf : 128 < fuel) {key : StringInfo}
    {ds : List StringInfo} {k : HmacInfo} (hk : HmacShape lsb t k) (hds : HmacUseOK t fuel (key, ds)) :
    ∃ k', hmacSession lsb fuel k key ds = .ok k' ∧ HmacShape lsb t k' ∧
      k'.digest.bytes = hmac (hashFn lsb t) (blockSize t) key.bytes (allBytes ds) := by
  obtain ⟨w, l, f⟩ := hds key (List.mem_cons_self ..)
  obtain ⟨k1, e1, g1⟩ := initializeHmac_holds hk w l f hf
  obtain ⟨k2, e2, g2⟩ := hmacUpdates_holds ds g1 fun x hx => hds x (List.mem_cons_of_mem _ hx)
  obtain ⟨k3, e3, g3, g4⟩ := finalizeHmac_holds g2 hf
  refine ⟨k3, ?_, g3.toHmacShape, g4⟩
  unfold hmacSession
  rw [e1, Res.ok_bind, e2, Res.ok_bind, e3]

theorem hmacSessions_shape {lsb : Bool} {t : HashType} {fuel : Nat} (hf : 128 < fuel)
    (l : List (StringInfo × List StringInfo)) :
    ∀ {k : HmacInfo}, HmacShape lsb t k → (∀ x ∈ l, HmacUseOK t fuel x) →
    ∃ k', hmacSessions lsb fuel k l = .ok k' ∧ HmacShape lsb t k' := by
  induction l with
  | nil => intro h hh _; exact ⟨h, rfl, hh⟩
  | cons x l ih =>
    intro h hh hl
    obtain ⟨h1, e1, g1, _⟩ := hmacSession_holds hf hh (hl x (List.mem_cons_self ..))
    obtain ⟨h2, e2, g2⟩ := ih g1 fun x hx => hl x (List.mem_cons_of_mem _ hx)
    exact ⟨h2, by rw [hmacSessions, e1]; exact e2, g2⟩

/-! ### Evaluation of the published functions -/

/-- The kernel evaluates `n` to a literal before it goes on. -/
def strictNat {α : Type} (n : Nat) (f : Nat → α) : α := Nat.rec (f 0) (fun m _ => f (m + 1)) n

theorem strictNat_eq {α : Type} (n : Nat) (f : Nat → α) : strictNat n f = f n := by cases n <;> rfl

/-- The kernel evaluates every word to a literal before it goes on. -/
def forceW {α : Type} {w : Nat} : List (BitVec w) → (List (BitVec w) → α) → α
  | [], k => k []
  | x :: l, k => strictNat x.toNat fun n => forceW l fun r => k (BitVec.ofNat w n :: r)

theorem forceW_eq {α : Type} {w : Nat} (l : List (BitVec w)) (k : List (BitVec w) → α) : forceW l k = k l := by
  induction l generalizing k with
  | nil => rfl
  | cons x l ih => rw [forceW, strictNat_eq, ih, BitVec.ofNat_toNat, BitVec.setWidth_eq]

/-- The rounds of Keccak-f, evaluated step by step. -/
def roundsF {α : Type} : List Nat → List (BitVec 64) → (List (BitVec 64) → α) → α
  | [], s, k => k s
  | i :: l, s, k => forceW (sha3Theta s) fun s => forceW (sha3RhoStep s) fun s => forceW (sha3Pi s) fun s =>
    forceW (sha3Iota i (sha3Chi s)) fun s => roundsF l s k

theorem roundsF_eq {α : Type} (l : List Nat) (s : List (BitVec 64)) (k : List (BitVec 64) → α) :
    roundsF l s k = k (l.foldl (fun s i => sha3Iota i (sha3Chi (sha3Pi (sha3RhoStep (sha3Theta s))))) s) := by
  induction l generalizing s with
  | nil => rfl
  | cons i l ih => simp only [roundsF, forceW_eq, List.foldl_cons, ih]

/-- One block absorbed, evaluated step by step. -/
def absorbF {α : Type} (s b : List Byte) (k : List Byte → α) : α :=
  forceW (sha3ToWords (List.zipWith (· ^^^ ·) s (b ++ List.replicate (200 - b.length) 0))) fun w =>
    roundsF (List.range 24) w fun w => forceW (sha3ToBytes w) k

theorem absorbF_eq {α : Type} (s b : List Byte) (k : List Byte → α) (hs : s.length = 200) (hb : b.length ≤ 200) :
    absorbF s b k = k (Keccak.absorb s b) := by
  have hl : (List.zipWith (· ^^^ ·) s (b ++ List.replicate (200 - b.length) 0)).length = 200 := by
    rw [List.length_zipWith, List.length_append, List.length_replicate, hs]; omega
  have he : Keccak.absorb s b = sha3Permutation (List.zipWith (· ^^^ ·) s (b ++ List.replicate (200 - b.length) 0)) := by
    unfold Keccak.absorb
    rw [sha3Permutation_eq hl]
  rw [he]
  unfold absorbF sha3Permutation sha3PermutationOnWords
  rw [forceW_eq, roundsF_eq, forceW_eq]

theorem keccak_absorb_length (s b : List Byte) : (Keccak.absorb s b).length = 200 := keccak_f_length _

/-- Blocks absorbed, evaluated step by step. -/
def absorbsF {α : Type} : List (List Byte) → List Byte → (List Byte → α) → α
  | [], s, k => k s
  | b :: l, s, k => absorbF s b fun s => absorbsF l s k

theorem absorbsF_eq {α : Type} {r : Nat} (hr : r ≤ 200) (k : List Byte → α) (l : List (List Byte)) :
    ∀ s : List Byte, s.length = 200 → (∀ b ∈ l, b.length = r) → absorbsF l s k = k (l.foldl Keccak.absorb s) := by
  induction l with
  | nil => intro s _ _; rw [List.foldl_nil, absorbsF]
  | cons b l ih =>
    intro s h0 hb
    rw [absorbsF, absorbF_eq _ _ _ h0 (by rw [hb b (List.mem_cons_self ..)]; exact hr), List.foldl_cons]
    exact ih _ (keccak_absorb_length s b) fun c hc => hb c (List.mem_cons_of_mem _ hc)

/-- The sponge, evaluated step by step. -/
def spongeF {α : Type} (r : Nat) (x : Byte) (n : Nat) (m : List Byte) (k : List Byte → α) : α :=
  absorbsF (blocks r (Keccak.pad r x m)) (List.replicate 200 0) fun s => forceW (s.take n) k

theorem spongeF_eq {α : Type} {r : Nat} (hr : r ≤ 200) (x : Byte) (n : Nat) (m : List Byte) (k : List Byte → α) :
    spongeF r x n m k = k (Keccak.sponge r x n m) := by
  unfold spongeF Keccak.sponge md
  rw [absorbsF_eq hr _ _ _ List.length_replicate (@blocks_length r (Keccak.pad r x m)), forceW_eq]

theorem sha224_eval (m : List Byte) : SHA2.sha224 m =
    ((md 64 (transformSha256 true) (sha224Alg true).init (pad 64 8 m (be 8 (8 * m.length)))).flatMap
      fun x => be 4 x.toNat).take 28 := by
  have h := md_map (n := 64) (f1 := transformSha256 true) (f2 := SHA2.compress SHA2.p32) SHA2.V.words
    (fun s b hb => transformSha256_eq true s hb) SHA2.init224 (pad 64 8 m (be 8 (8 * m.length)))
  rw [← (sha2_inits true).1] at h
  rw [h]; rfl

end Wizard

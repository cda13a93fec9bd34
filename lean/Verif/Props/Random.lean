import Verif.Lemmas.Random
/-! Properties C36 to C39 and C77: the random generator (random.c). -/
namespace Wizard.Props
open Wizard Wizard.Spec Wizard.Spec.Hash

/-! ### C36, C37, C39: keys -/

/-- **C36** For every hash type, entropy and uninitialised memory, after any requests, two sequences of requests for the same
total number of bytes give the same bytes; if one stops the library because the nonces are used up, so does the other. -/
theorem C36_split (lsb : Bool) (junk : HashJunk) (mem : Nat → Byte) (t : HashType) (ht : HashType.Supported t) (fuel : Nat)
    (hf : 128 < fuel) (e1 e2 : StringInfo) (h1 : UpdatesOK t fuel [e1]) (h2 : UpdatesOK t fuel [e2]) (earlier ns ms : List Nat)
    (hs : ns.sum = ms.sum) (r : RandomInfo) (x : List Byte)
    (hr : (do let r ← acquireRandom lsb fuel junk mem t e1 e2; randomKeys lsb fuel r earlier) = .ok (x, r)) :
    (∃ out r1 r2, randomKeys lsb fuel r ns = .ok (out, r1) ∧ randomKeys lsb fuel r ms = .ok (out, r2) ∧ out.length = ns.sum) ∨
    (randomKeys lsb fuel r ns = .fatal ∧ randomKeys lsb fuel r ms = .fatal) := by
  obtain ⟨r0, a1, a2⟩ := acquired_holds lsb junk mem ht hf h1 h2
  rw [a1, Res.ok_bind] at hr
  obtain ⟨c, left, a2⟩ := a2
  have b := randomKeys_spec ht hf earlier a2
  cases hg : genBlocks (genFn lsb t (hmacPad (hashFn lsb t) (blockSize t) e2.bytes)) (blocksFor (hashSize t) earlier.sum left.length) c with
  | none => rw [hg] at b; simp only [] at b; rw [b] at hr; cases hr
  | some y =>
    rw [hg] at b
    obtain ⟨r', b1, b2, _⟩ := b
    rw [b1] at hr
    cases hr
    have d := randomKeys_spec ht hf ns b2
    have e := randomKeys_spec ht hf ms b2
    rw [← hs] at e
    cases hg2 : genBlocks (genFn lsb t (hmacPad (hashFn lsb t) (blockSize t) e2.bytes))
        (blocksFor (hashSize t) ns.sum ((left ++ y.1).drop earlier.sum).length) y.2 with
    | none => rw [hg2] at d e; exact .inr ⟨d, e⟩
    | some z =>
      rw [hg2] at d e
      obtain ⟨r1, d1, _⟩ := d
      obtain ⟨r2, e1, _⟩ := e
      refine .inl ⟨_, r1, r2, d1, e1, ?_⟩
      have hl := (blocksFor_spec (d := hashSize t) (n := ns.sum) (l := ((left ++ y.1).drop earlier.sum).length)
        (by have := hashSize_pos ht; omega)).1
      have hz := genBlocks_length ht b2 hf hg2
      rw [List.length_take, List.length_append, hz]; omega

/-- **C36** For the hash functions that conform (see C33), the bytes any sequence of requests gives are the bytes from 32 on of
the stream HMAC(key, 0) ++ HMAC(key, 1) ++ ..., the key being the second entropy; the library stops only when the counter
would need more than all the bytes of the nonce but one. -/
theorem C36_stream (lsb : Bool) (junk : HashJunk) (mem : Nat → Byte) (t : HashType)
    (ht : t = .crc64 ∨ t = .md5 ∨ t = .sha1 ∨ t = .sha2 ∨ t = .sha2256 ∨ t = .sha2384 ∨ t = .sha2512) (fuel : Nat)
    (hf : 128 < fuel) (e1 e2 : StringInfo) (h1 : UpdatesOK t fuel [e1]) (h2 : UpdatesOK t fuel [e2]) (ns : List Nat) (D k : Nat)
    (hD : D = (published t []).length) (hk : k = randomBlocks D (32 + ns.sum)) :
    ∃ r, acquireRandom lsb fuel junk mem t e1 e2 = .ok r ∧
      if k < 256 ^ (2 * D - 1) then
        ∃ r', randomKeys lsb fuel r ns =
          .ok (((randomStream (published t) (publishedBlocksize t) D e2.bytes k).drop 32).take ns.sum, r')
      else randomKeys lsb fuel r ns = .fatal := by
  have hs : HashType.Supported t := by rcases ht with rfl | rfl | rfl | rfl | rfl | rfl | rfl <;> exact ⟨nofun, nofun⟩
  have hD2 : D = hashSize t := by
    rw [hD]; exact published_size junk ht
  have hfn : hashFn lsb t = published t ∧ blockSize t = publishedBlocksize t := by
    rcases ht with rfl | rfl | rfl | rfl | rfl | rfl | rfl <;> exact ⟨rfl, rfl⟩
  obtain ⟨r, a1, a2⟩ := acquired_run lsb junk mem hs hf h1 h2 ns _ rfl k (by rw [hk, hD2]; rfl)
  refine ⟨r, a1, ?_⟩
  rw [hD2]
  split
  · rename_i h; rw [if_pos h] at a2
    obtain ⟨r', b1, _⟩ := a2
    refine ⟨r', ?_⟩
    rw [b1, ← hfn.1, ← hfn.2]; rfl
  · rename_i h; rw [if_neg h] at a2; exact a2

/-- The hypotheses are met: SHA-256 with entropy strings of 64 and 100 bytes. -/
example : UpdatesOK .sha2256 1000 [⟨64, List.replicate (64 + maxCipherBlocksize) 7⟩] ∧
    UpdatesOK .sha2256 1000 [⟨100, List.replicate (100 + maxCipherBlocksize) 9⟩] := by
  refine ⟨?_, ?_⟩ <;> intro d hd <;> rw [List.mem_singleton] at hd <;> subst hd <;>
    exact ⟨wf_replicate _ _, by simp only [updateLimit]; omega, by simp only []; omega⟩

/-- **C37** `IncrementRandomNonce`: as a number the nonce goes up by one, or the library stops because all bytes but the first
are at their greatest. -/
theorem C37_increment (n : StringInfo) (hw : n.WF) (hl : 0 < n.length) :
    (∃ r, incrementRandomNonce n = .ok r ∧ r.length = n.length ∧ num r.bytes = num n.bytes + 1) ∨
    (incrementRandomNonce n = .fatal ∧ ∀ b ∈ n.bytes.tail, b = 0xff) := by
  have h := incrementRandomNonce_spec hw hl
  cases hn : nonceNext n.bytes with
  | none =>
    rw [hn] at h
    exact .inr ⟨h, nonceNext_none hn⟩
  | some c =>
    rw [hn] at h
    obtain ⟨r, a1, a2, a3, a4⟩ := h
    exact .inl ⟨r, a1, a3, by rw [a4]; exact nonceNext_num hn⟩

/-- **C37** For every hash type, entropy and sequence of requests, the nonces given to the HMAC since the generator was acquired
are 0, 1, 2, ... (`used` records them), and no two are the same. -/
theorem C37_nonces (lsb : Bool) (junk : HashJunk) (mem : Nat → Byte) (t : HashType) (ht : HashType.Supported t) (fuel : Nat)
    (hf : 128 < fuel) (e1 e2 : StringInfo) (h1 : UpdatesOK t fuel [e1]) (h2 : UpdatesOK t fuel [e2]) (ns : List Nat)
    (r : RandomInfo) (x : List Byte)
    (hr : (do let r ← acquireRandom lsb fuel junk mem t e1 e2; randomKeys lsb fuel r ns) = .ok (x, r)) :
    (∃ k, r.used = (List.range k).map (be r.nonce.length)) ∧ r.used.Pairwise (· ≠ ·) ∧ r.nonce.bytes ∉ r.used := by
  obtain ⟨r0, a1, a2⟩ := acquired_run lsb junk mem ht hf h1 h2 ns _ rfl _ rfl
  rw [a1, Res.ok_bind] at hr
  split at a2
  · rename_i hk
    obtain ⟨r', b1, b2, b3, b4⟩ := a2
    rw [b1] at hr
    cases hr
    have hp := hashSize_pos ht
    have hpow : (256 : Nat) ^ (2 * hashSize t - 1) ≤ 256 ^ (2 * hashSize t) := Nat.pow_le_pow_right (by omega) (by omega)
    refine ⟨⟨_, by rw [b2, b4]⟩, ?_, ?_⟩
    · rw [b2, List.pairwise_map]
      refine List.Pairwise.imp_of_mem ?_ (List.nodup_range)
      intro i j hi hj hij he
      rw [List.mem_range] at hi hj
      exact hij (be_inj (by omega) (by omega) he)
    · rw [b2, b3]
      intro hm
      rw [List.mem_map] at hm
      obtain ⟨i, hi, he⟩ := hm
      rw [List.mem_range] at hi
      have := be_inj (by omega) (by omega) he
      omega
  · rw [a2] at hr; cases hr

/-- **C39** The nonce and the reservoir of a seeded generator are all zeros whatever entropy was gathered: AcquireRandomInfo
copies the digest of an HMAC that has been given its key but has not been finalized (random.c:208-224). -/
theorem C39_seed_violated (lsb : Bool) (junk : HashJunk) (mem : Nat → Byte) (t : HashType) (ht : HashType.Supported t) (fuel : Nat)
    (hf : 128 < fuel) (e1 e2 : StringInfo) (h1 : UpdatesOK t fuel [e1]) (h2 : UpdatesOK t fuel [e2]) :
    ∃ r0 r, newRandom lsb junk t = .ok r0 ∧ seedRandom lsb fuel mem r0 e1 e2 = .ok r ∧
      (∀ b ∈ r.nonce.bytes, b = 0) ∧ (∀ b ∈ r.reservoir.bytes, b = 0) ∧ 0 < r.nonce.bytes.length ∧ 0 < r.reservoir.bytes.length := by
  obtain ⟨r0, r, a1, a2, a3, _, a5⟩ := seed_holds lsb junk mem ht hf h1 h2
  have hp := hashSize_pos ht
  refine ⟨r0, r, a1, a2, ?_, ?_, ?_, ?_⟩
  · rw [a3.nonce, ← replicate_be]; intro b hb; exact List.eq_of_mem_replicate hb
  · rw [a5]; intro b hb; exact List.eq_of_mem_replicate hb
  · rw [a3.nonce, be_length]; omega
  · rw [a5, List.length_replicate]; omega

/-- **C39** The first of the two entropies gathered has no effect at all: for any two of them every later request gives the same
bytes. -/
theorem C39_first_entropy_violated (lsb : Bool) (junk junk' : HashJunk) (mem mem' : Nat → Byte) (t : HashType)
    (ht : HashType.Supported t) (fuel : Nat) (hf : 128 < fuel) (e1 e1' e2 : StringInfo) (h1 : UpdatesOK t fuel [e1])
    (h1' : UpdatesOK t fuel [e1']) (h2 : UpdatesOK t fuel [e2]) (ns : List Nat) :
    ∃ r r', acquireRandom lsb fuel junk mem t e1 e2 = .ok r ∧ acquireRandom lsb fuel junk' mem' t e1' e2 = .ok r' ∧
      ((∃ out s s', randomKeys lsb fuel r ns = .ok (out, s) ∧ randomKeys lsb fuel r' ns = .ok (out, s')) ∨
       (randomKeys lsb fuel r ns = .fatal ∧ randomKeys lsb fuel r' ns = .fatal)) := by
  obtain ⟨r, a1, a2⟩ := acquired_run lsb junk mem ht hf h1 h2 ns _ rfl _ rfl
  obtain ⟨r', b1, b2⟩ := acquired_run lsb junk' mem' ht hf h1' h2 ns _ rfl _ rfl
  refine ⟨r, r', a1, b1, ?_⟩
  split at a2
  · rename_i h
    rw [if_pos h] at b2
    obtain ⟨s, c1, _⟩ := a2
    obtain ⟨s', d1, _⟩ := b2
    exact .inl ⟨_, s, s', c1, d1⟩
  · rename_i h
    rw [if_neg h] at b2
    exact .inr ⟨a2, b2⟩

/-! ### C38, C77: values -/

/-- The state of GetPseudoRandomValue. -/
def seeds (r : RandomInfo) : List (BitVec 64) := [r.seed0, r.seed1, r.seed2, r.seed3]

/-- **C38** Two generators with different seeds still have different seeds after GetPseudoRandomValue. -/
theorem C38_injective (r r' : RandomInfo) (h : seeds (pseudoStep r) = seeds (pseudoStep r')) : seeds r = seeds r' := by
  have a := pseudo_back r
  have b := pseudo_back r'
  unfold seeds at h ⊢
  simp only [List.cons.injEq, and_true] at h
  obtain ⟨h0, h1, h2, h3⟩ := h
  rw [h0, h1, h2, h3] at a
  have := a.symm.trans b
  simp only [Prod.mk.injEq] at this
  obtain ⟨h0, h1, h2, h3⟩ := this
  rw [h0, h1, h2, h3]

/-- **C38** Every state is the successor of a state. -/
theorem C38_surjective (r : RandomInfo) : ∃ r', seeds (pseudoStep r') = seeds r :=
  ⟨_, by
    have := pseudo_forth r _ rfl
    unfold seeds
    simp only [Prod.mk.injEq] at this
    obtain ⟨h0, h1, h2, h3⟩ := this
    rw [h0, h1, h2, h3]⟩

/-- **C38** From a state that is not all zeros no number of calls of GetPseudoRandomValue leads to all zeros. -/
theorem C38_nonzero (r : RandomInfo) (h : seeds r ≠ [0, 0, 0, 0]) (n : Nat) :
    seeds (Nat.repeat (fun r => (getPseudoRandomValue r).2) n r) ≠ [0, 0, 0, 0] := by
  induction n with
  | zero => exact h
  | succ n ih =>
    intro e
    apply ih
    refine C38_injective _ { r with seed0 := 0, seed1 := 0, seed2 := 0, seed3 := 0 } ?_
    exact e.trans (by simp [seeds, pseudoStep, randomRotl])

/-- **C38** Every value GetPseudoRandomValue returns is at most 1 (a `Double` is `num / 2^exp`). -/
theorem C38_value (r : RandomInfo) : (getPseudoRandomValue r).1.num ≤ 2 ^ (getPseudoRandomValue r).1.exp :=
  pseudo_value_le _

/-- The factor is the double nearest to 1/(2^53 - 1): no other multiple of 2^-105 is nearer, and doubles in [2^-53, 2^-52) are
those multiples. -/
example (m : Nat) : ((normalizeNum * (2 ^ 53 - 1) : Int) - 2 ^ 105).natAbs ≤ ((m * (2 ^ 53 - 1) : Int) - 2 ^ 105).natAbs := by
  unfold normalizeNum; omega

/-- **C77** GetPseudoRandomValue returns exactly 1.0, which is outside the documented interval [0.0, 1.0), in every state whose
first and last seed add up to one of the 4096 greatest words; there are such states among the non-zero ones. -/
theorem C77_pseudo_violated :
    (∀ r : RandomInfo, 2 ^ 64 - 2 ^ 12 ≤ (r.seed0 + r.seed3).toNat →
      (getPseudoRandomValue r).1.num = 2 ^ (getPseudoRandomValue r).1.exp) ∧
    ∀ r : RandomInfo, ∃ r' : RandomInfo, r'.hmac = r.hmac ∧ seeds r' ≠ [0, 0, 0, 0] ∧ 2 ^ 64 - 2 ^ 12 ≤ (r'.seed0 + r'.seed3).toNat := by
  refine ⟨?_, ?_⟩
  · intro r h
    exact pseudo_value_one h
  · intro r
    exact ⟨{ r with seed0 := BitVec.allOnes 64, seed3 := 0 }, rfl, by simp [seeds], show 2 ^ 64 - 2 ^ 12 ≤ (BitVec.allOnes 64 + 0).toNat by decide⟩

/-- **C77** In every other state the value is below 1.0. -/
theorem C77_pseudo_partial (r : RandomInfo) (h : (r.seed0 + r.seed3).toNat < 2 ^ 64 - 2 ^ 12) :
    (getPseudoRandomValue r).1.num < 2 ^ (getPseudoRandomValue r).1.exp :=
  pseudo_value_lt h

/-- **C77** GetRandomValue returns exactly 1.0 for each of the 1023 keys from 2^64 - 1024 on that its loop lets through: the
conversion of the key to a double rounds up to 2^64. -/
theorem C77_value_violated (lsb : Bool) (fuel turns : Nat) (r r' : RandomInfo) (b : List Byte)
    (hk : setRandomKey lsb fuel r 8 = .ok (b, r')) (h1 : 2 ^ 64 - 1024 ≤ (hostWord lsb b).toNat) (h2 : (hostWord lsb b).toNat < 2 ^ 64 - 1) :
    getRandomValue lsb fuel (turns + 1) r = .ok (⟨2 ^ 64, 64⟩, r') := by
  unfold getRandomValue
  rw [randomValueKey, hk, Res.ok_bind]
  simp only []
  rw [if_neg (by intro h; rw [h, BitVec.toNat_allOnes] at h2; omega), Res.ok_bind]
  unfold randomValueOf
  rw [roundDouble_top h1 (hostWord lsb b).isLt]

/-- **C77** For every other key the value is below 1.0. -/
theorem C77_value_partial (lsb : Bool) (fuel : Nat) : ∀ (turns : Nat) (r r' : RandomInfo) (v : Double),
    getRandomValue lsb fuel turns r = .ok (v, r') →
    ∃ key : BitVec 64, v = randomValueOf key ∧ (key.toNat < 2 ^ 64 - 1024 → v.num < 2 ^ v.exp) ∧ v.num ≤ 2 ^ v.exp := by
  intro turns r r' v h
  unfold getRandomValue at h
  cases hk : randomValueKey lsb fuel turns r with
  | ub => rw [hk] at h; cases h
  | fatal => rw [hk] at h; cases h
  | ok x =>
    rw [hk, Res.ok_bind] at h
    cases h
    refine ⟨x.1, rfl, fun hx => roundDouble_lt64 hx, ?_⟩
    rcases Nat.lt_or_ge x.1.toNat (2 ^ 64 - 1024) with hx | hx
    · exact Nat.le_of_lt (roundDouble_lt64 hx)
    · show roundDouble _ ≤ _
      rw [roundDouble_top hx x.1.isLt]; exact Nat.le_refl _

end Wizard.Props

import Verif.Lemmas.SHA3
/-! SHA-3: the buffering invariant of the sponge. -/
namespace Wizard
open Spec Spec.Keccak Spec.Hash

/-- The state after the bytes `m` have been fed, for rate `r` bytes and output of `n` bytes. -/
structure Sha3Holds (r n : Nat) (s : Sha3Info) (m : List Byte) : Prop where
  split : ∃ a t, m = a ++ t ∧ r ∣ a.length ∧ t.length < r ∧ s.bitsInQueue = 8 * t.length ∧
    s.message.take t.length = t ∧ s.state = md r absorb (List.replicate 200 0) a
  message : s.message.length = 192
  rate : s.rate = 8 * r
  len : s.length = 8 * n
  squeeze : s.squeeze = false
  size : s.digestsize = n
  digest : s.digest.length = n + maxCipherBlocksize

theorem md_absorb_length (r : Nat) (a : List Byte) : (md r absorb (List.replicate 200 0) a).length = 200 :=
  md_inv (fun l : List Byte => l.length = 200) (fun _ _ _ => keccak_f_length _) List.length_replicate _

theorem sha3AbsorbQueue_ok {r : Nat} {s : Sha3Info} (hr : r ≤ 192) (hm : s.message.length = 192)
    (hrate : s.rate = 8 * r) (hs : s.state.length = 200) :
    sha3AbsorbQueue s = .ok { s with state := absorb s.state (s.message.take r), bitsInQueue := 0 } := by
  unfold sha3AbsorbQueue
  rw [hrate, Nat.mul_div_cancel_left r (by decide), rdN_ok (by omega), Res.ok_bind, List.drop_zero,
    sha3PermutationAfterXor_eq (by simp; omega) hs]

theorem sha3Blocks_ok {r : Nat} (hr : 0 < r) (hr2 : r ≤ 192) (datum : List Byte) (k : Nat) :
    ∀ (p : Nat) (s : Sha3Info) (a : List Byte), s.rate = 8 * r → p + k * r ≤ datum.length → r ∣ a.length →
      s.state = md r absorb (List.replicate 200 0) a →
      sha3Blocks datum k p s = .ok { s with state := md r absorb (List.replicate 200 0) (a ++ (datum.drop p).take (k * r)) } := by
  induction k with
  | zero =>
    intro p s a _ _ _ hs
    rw [Nat.zero_mul, List.take_zero, List.append_nil, ← hs]; rfl
  | succ k ih =>
    intro p s a hrate hp ha hs
    rw [Nat.add_mul, Nat.one_mul] at hp
    have hbl : ((datum.drop p).take r).length = r := by simp; omega
    have hrd : s.rate / 8 = r := by omega
    rw [sha3Blocks, hrd, rdN_ok (by omega), Res.ok_bind,
      sha3PermutationAfterXor_eq (by omega) (by rw [hs]; exact md_absorb_length _ _)]
    rw [ih (p + r) { s with state := absorb s.state ((datum.drop p).take r) } (a ++ (datum.drop p).take r) hrate (by omega)
      (by rw [List.length_append, hbl]; exact Nat.dvd_add ha (Nat.dvd_refl _))
      (by simp only []; rw [md_append hr ha, md_one hr hbl, hs])]
    congr 2
    rw [List.append_assoc, show (k + 1) * r = r + k * r by rw [Nat.add_mul]; omega, List.take_add, List.drop_drop]

/-- One call of `UpdateSHA3`: the loop with `i` bytes of `d` already absorbed. -/
theorem sha3AbsorbLoop_holds {r n : Nat} (hr : 0 < r) (hr2 : r ≤ 192) (datum : List Byte) (len : Nat)
    (hd : len ≤ datum.length) (fuel : Nat) :
    ∀ (i : Nat) (s : Sha3Info) (m : List Byte), Sha3Holds r n s m → i ≤ len → len - i < fuel →
      (8 * (len - i) < 2 ^ 32 ∨ s.bitsInQueue = 0) →
      ∃ s', sha3AbsorbLoop datum (8 * len) fuel (8 * i) s = .ok s' ∧
        Sha3Holds r n s' (m ++ (datum.drop i).take (len - i)) := by
  induction fuel with
  | zero => intro i s m _ _ h; omega
  | succ fuel ih =>
    intro i s m h hi hf hsz
    obtain ⟨a, t, hm, ha, ht, hq, htake, hst⟩ := h.split
    have hml := h.message
    have hrate := h.rate
    unfold sha3AbsorbLoop
    by_cases hlt : 8 * i < 8 * len
    · rw [if_pos hlt]
      by_cases hc : s.bitsInQueue ≠ 0 ∨ 8 * len < s.rate ∨ 8 * i > 8 * len - s.rate
      · rw [if_pos hc]
        -- the fill branch: the remaining bit count fits in an unsigned int
        have hsmall : (8 * len - 8 * i) % 2 ^ 32 = 8 * (len - i) := by
          rw [← Nat.mul_sub]
          refine Nat.mod_eq_of_lt ?_
          rcases hsz with h | h
          · exact h
          · rw [hrate] at hc; omega
        generalize hk : (if 8 * (len - i) + 8 * t.length > 8 * r then r - t.length else len - i) = k
        have hkl : 0 < k ∧ k ≤ len - i ∧ t.length + k ≤ r ∧ (t.length + k < r → k = len - i) := by
          rw [← hk]; split <;> omega
        have hk8 : (if 8 * (len - i) + 8 * t.length > 8 * r then 8 * r - 8 * t.length else 8 * (len - i)) = 8 * k := by
          rw [← hk]; split <;> omega
        have hbl : ((datum.drop i).take k).length = k := by simp; omega
        obtain ⟨mm, hmm⟩ : ∃ mm, mm = s.message.take t.length ++ (datum.drop i).take k ++
            s.message.drop (t.length + ((datum.drop i).take k).length) := ⟨_, rfl⟩
        have hfill : sha3Fill s datum (8 * len) (8 * i) =
            .ok ({ s with message := mm, bitsInQueue := 8 * t.length + 8 * k }, 8 * i + 8 * k, 0) := by
          unfold sha3Fill
          simp only []
          rw [hsmall, hq, hrate, hk8, Nat.mul_mod_right, Nat.sub_zero, Nat.mul_div_cancel_left _ (by decide),
            Nat.mul_div_cancel_left _ (by decide), Nat.mul_div_cancel_left _ (by decide), rdN_ok (by omega), Res.ok_bind,
            wrN_ok (by rw [hbl]; omega), Res.ok_bind, ← hmm, ← hrate]
        rw [hfill, Res.ok_bind]
        simp only []
        have hpre : mm.take (t ++ (datum.drop i).take k).length = t ++ (datum.drop i).take k := by
          rw [hmm, htake]; exact List.take_left' rfl
        have hml' : mm.length = 192 := by
          rw [hmm]
          simp only [List.length_append, List.length_take, List.length_drop, hbl]; omega
        have hrest : ∃ s', sha3Rest { s with message := mm, bitsInQueue := 8 * t.length + 8 * k } datum (8 * i + 8 * k) 0 =
            .ok (s', 8 * (i + k)) ∧ Sha3Holds r n s' (m ++ (datum.drop i).take k) ∧
            (8 * (len - (i + k)) < 2 ^ 32 ∨ s'.bitsInQueue = 0) := by
          unfold sha3Rest
          by_cases hfull : t.length + k = r
          · rw [if_pos (by simp only []; rw [hrate]; omega),
              sha3AbsorbQueue_ok (s := { s with message := mm, bitsInQueue := 8 * t.length + 8 * k }) hr2 hml' hrate (by rw [hst]; exact md_absorb_length _ _), Res.ok_bind,
              if_neg (by decide), ← Nat.mul_add 8 i k]
            have htk : mm.take r = t ++ (datum.drop i).take k := by
              rw [← hpre, List.length_append, hbl, hfull]
            have hlk : (t ++ (datum.drop i).take k).length = r := by rw [List.length_append, hbl, hfull]
            refine ⟨⟨s.digestsize, s.digest, absorb s.state (mm.take r), mm, s.rate, 0, s.length, s.squeeze, s.squeezeBits⟩,
              rfl, ⟨⟨a ++ (t ++ (datum.drop i).take k), [], ?_, ?_, hr, rfl, rfl, ?_⟩, hml', hrate, h.len,
              h.squeeze, h.size, h.digest⟩, Or.inr rfl⟩
            · rw [hm, List.append_nil, List.append_assoc]
            · rw [List.length_append, hlk]; exact Nat.dvd_add ha (Nat.dvd_refl _)
            · simp only []
              rw [md_append hr ha, md_one hr hlk, htk, hst]
          · rw [if_neg (by simp only []; rw [hrate]; omega), Res.ok_bind, if_neg (by decide), ← Nat.mul_add 8 i k]
            refine ⟨{ s with message := mm, bitsInQueue := 8 * t.length + 8 * k }, rfl, ⟨⟨a, t ++ (datum.drop i).take k, ?_, ha, ?_, ?_, hpre, hst⟩, hml', hrate, h.len,
              h.squeeze, h.size, h.digest⟩, Or.inl ?_⟩
            · rw [hm, List.append_assoc]
            · rw [List.length_append, hbl]; omega
            · rw [List.length_append, hbl, Nat.mul_add]
            · omega
        obtain ⟨s', h1, h2, h3⟩ := hrest
        rw [h1, Res.ok_bind]
        obtain ⟨s'', g1, g2⟩ := ih (i + k) s' _ h2 (by omega) (by omega) h3
        refine ⟨s'', g1, ?_⟩
        rw [List.append_assoc, ← List.drop_drop] at g2
        rw [show len - i = k + (len - (i + k)) by omega, List.take_add]
        exact g2
      · rw [if_neg hc]
        rw [hrate] at hc
        have ht0 : t = [] := List.length_eq_zero_iff.mp (by omega)
        have hge : r ≤ len - i := by omega
        have hdiv : (8 * len - 8 * i) / (8 * r) = (len - i) / r := by
          rw [← Nat.mul_sub, Nat.mul_div_mul_left _ _ (by decide)]
        have hkr : (len - i) / r * r ≤ len - i := Nat.div_mul_le_self _ _
        have hk0 : 0 < (len - i) / r := Nat.div_pos hge hr
        have hk1 : 1 ≤ (len - i) / r * r := Nat.mul_pos hk0 hr
        simp only []
        rw [hrate, hdiv, Nat.mul_div_cancel_left _ (by decide),
          sha3Blocks_ok hr hr2 datum _ i s a hrate (by omega) ha hst, Res.ok_bind]
        simp only []
        rw [hrate, show 8 * i + (len - i) / r * (8 * r) = 8 * (i + (len - i) / r * r) by
          rw [Nat.mul_add, Nat.mul_left_comm]]
        generalize hK : (len - i) / r * r = K at *
        have hKd : r ∣ K := ⟨(len - i) / r, by rw [← hK, Nat.mul_comm]⟩
        have hbl : ((datum.drop i).take K).length = K := by simp; omega
        obtain ⟨s'', g1, g2⟩ := ih (i + K)
          { s with state := md r absorb (List.replicate 200 0) (a ++ (datum.drop i).take K) } (m ++ (datum.drop i).take K)
          ⟨⟨a ++ (datum.drop i).take K, [], by rw [hm, ht0, List.append_nil, List.append_nil],
            by rw [List.length_append, hbl]; exact Nat.dvd_add ha hKd, hr, by simp only []; rw [hq, ht0], rfl, rfl⟩,
            hml, hrate, h.len, h.squeeze, h.size, h.digest⟩ (by omega) (by omega)
          (Or.inr (by simp only []; rw [hq, ht0]; rfl))
        refine ⟨s'', by rw [← hrate]; exact g1, ?_⟩
        rw [List.append_assoc, ← List.drop_drop] at g2
        rw [show len - i = K + (len - (i + K)) by omega, List.take_add]
        exact g2
    · rw [if_neg hlt]
      refine ⟨s, rfl, ?_⟩
      rw [show len - i = 0 by omega, List.take_zero, List.append_nil]
      exact h

theorem updateSha3_holds {r n : Nat} (hr : 0 < r) (hr2 : r ≤ 192) {s : Sha3Info} {m : List Byte}
    (h : Sha3Holds r n s m) {d : StringInfo} (hd : d.WF) {fuel : Nat} (hf : d.length < fuel)
    (hsz : 8 * d.length < 2 ^ 32 ∨ s.bitsInQueue = 0) :
    ∃ s', updateSha3 fuel s d = .ok (true, s') ∧ Sha3Holds r n s' (m ++ d.bytes) := by
  have hdl : d.length + maxCipherBlocksize ≤ d.datum.length := hd
  unfold updateSha3
  obtain ⟨_, t, _, _, _, hq, _⟩ := h.split
  rw [if_neg (by rw [hq]; omega), if_neg (by rw [h.squeeze]; decide)]
  obtain ⟨s', h1, h2⟩ := sha3AbsorbLoop_holds hr hr2 d.datum d.length (by omega) fuel 0 s m h (by omega) (by omega)
    (by simpa using hsz)
  rw [Nat.mul_zero] at h1
  rw [h1, Res.ok_bind]
  exact ⟨s', rfl, h2⟩

theorem initializeSha3_holds {r n : Nat} (hr : 0 < r) {s : Sha3Info} {c : Nat} (hc : c = 16 * n) (h1 : s.digestsize = n)
    (h2 : s.digest.length = n + maxCipherBlocksize) : Sha3Holds r n (initializeSha3 (8 * r) c s) [] :=
  ⟨⟨[], [], rfl, ⟨0, rfl⟩, hr, rfl, rfl, by rw [md_short hr]; rfl⟩, by simp only [initializeSha3, List.length_replicate], rfl,
    by simp only [initializeSha3]; omega, rfl, h1, h2⟩

theorem acquireSha3_holds {r n : Nat} (hr : 0 < r) : Sha3Holds r n (acquireSha3 n (8 * r) (16 * n)) [] :=
  initializeSha3_holds hr rfl rfl (by simp)

theorem byteOr_facts : (0 : Byte) ||| 1#8 <<< 0 = 0x01 ∧ (0 : Byte) ||| 1#8 <<< 7 = 0x80 ∧
    (0x01 : Byte) ||| 1#8 <<< 7 = 0x01 ||| 0x80 := by decide

theorem sha3Pad_ok {r n : Nat} (hr : 1 < r) (hr2 : r ≤ 192) {s : Sha3Info} {m : List Byte} (h : Sha3Holds r n s m) :
    ∃ c, sha3Pad s = .ok c ∧ c.message.take r = (md r absorb (List.replicate 200 0) (Keccak.pad r 0x01 m)).take r ∧
      c.message.length = 192 ∧ c.rate = 8 * r ∧ c.squeezeBits = 8 * r := by
  obtain ⟨a, t, hm, ha, ht, hq, htake, hst⟩ := h.split
  have hml := h.message
  have hrate := h.rate
  have hr0 : 0 < r := by omega
  have hmod : m.length % r = t.length := by
    obtain ⟨q, hq⟩ := ha
    rw [hm, List.length_append, hq, Nat.mul_add_mod, Nat.mod_eq_of_lt ht]
  -- the buffer after the first bit of the padding
  have hfirst : ∃ mm, sha3PadFirst s = .ok { s with message := mm } ∧ mm.length = 192 ∧
      mm.take r = t ++ 0x01 :: List.replicate (r - t.length - 1) 0 := by
    unfold sha3PadFirst
    rw [if_neg (by rw [hq, hrate]; omega), hq, hrate, show (8 * t.length + 7) / 8 = t.length by omega,
      Nat.mul_div_cancel_left _ (by decide), Nat.mul_div_cancel_left _ (by decide), Nat.mul_mod_right,
      wrN_ok (by rw [List.length_replicate]; omega), Res.ok_bind, htake, List.length_replicate,
      show t.length + (r - t.length) = r by omega]
    have hget : (t ++ List.replicate (r - t.length) (0 : Byte) ++ s.message.drop r)[t.length]? = some 0 := by
      rw [List.append_assoc, List.getElem?_append_right (Nat.le_refl _), Nat.sub_self,
        List.getElem?_append_left (by rw [List.length_replicate]; omega), List.getElem?_replicate, if_pos (by omega)]
    have hl : (t ++ List.replicate (r - t.length) (0 : Byte) ++ s.message.drop r).length = 192 := by simp; omega
    unfold rd wr
    rw [hget, Res.ok_bind, if_pos (by omega), Res.ok_bind, byteOr_facts.1]
    refine ⟨_, rfl, by rw [List.length_set, hl], ?_⟩
    rw [List.append_assoc, List.set_append_right _ _ (Nat.le_refl _), Nat.sub_self,
      show r - t.length = (r - t.length - 1) + 1 by omega, List.replicate_succ, List.cons_append, List.set_cons_zero,
      show (0x01 : Byte) :: (List.replicate (r - t.length - 1) 0 ++ s.message.drop r) =
        (0x01 :: List.replicate (r - t.length - 1) 0) ++ s.message.drop r from rfl, ← List.append_assoc]
    exact List.take_left' (by simp; omega)
  obtain ⟨mm, g1, g2, g3⟩ := hfirst
  unfold sha3Pad
  rw [g1, Res.ok_bind]
  simp only []
  rw [hrate, show (8 * r - 1) / 8 = r - 1 by omega, show (8 * r - 1) % 8 = 7 by omega]
  -- the padded block
  have hblk : ∃ b, mm[r - 1]? = some b ∧
      a ++ (mm.set (r - 1) (b ||| 1#8 <<< 7)).take r = Keccak.pad r 0x01 m := by
    unfold Keccak.pad
    simp only []
    rw [hmod]
    have hsplit : mm = (t ++ 0x01 :: List.replicate (r - t.length - 1) 0) ++ mm.drop r := by
      rw [← g3, List.take_append_drop]
    generalize mm.drop r = tl at hsplit
    subst hsplit
    by_cases h1 : r - t.length = 1
    · refine ⟨0x01, ?_, ?_⟩
      · rw [List.append_assoc, List.getElem?_append_right (by omega), show r - 1 - t.length = 0 by omega]; rfl
      · rw [if_pos h1, List.append_assoc, List.set_append_right _ _ (by omega), show r - 1 - t.length = 0 by omega, h1,
          byteOr_facts.2.2]
        show a ++ List.take r (t ++ ([0x01 ||| 0x80] ++ tl)) = _
        rw [← List.append_assoc t, List.take_left' (by simp; omega), ← List.append_assoc, ← hm]
    · have e : (0x01 : Byte) :: List.replicate (r - t.length - 1) 0 =
          (0x01 :: List.replicate (r - t.length - 2) 0) ++ [0] := by
        rw [show r - t.length - 1 = (r - t.length - 2) + 1 by omega, List.replicate_succ', List.cons_append]
      have hl : (t ++ (0x01 : Byte) :: List.replicate (r - t.length - 2) 0).length = r - 1 := by simp; omega
      rw [e]
      refine ⟨0, ?_, ?_⟩
      · rw [← List.append_assoc t, List.append_assoc _ [0], List.getElem?_append_right (by omega), hl, Nat.sub_self]; rfl
      · rw [if_neg h1, ← List.append_assoc t, List.append_assoc _ [0], List.set_append_right _ _ (by omega), hl,
          Nat.sub_self, byteOr_facts.2.1]
        show a ++ List.take r ((t ++ 0x01 :: List.replicate (r - t.length - 2) 0) ++ ([0x80] ++ tl)) = _
        rw [← List.append_assoc _ [0x80], List.take_left' (by rw [List.length_append, hl]; simp; omega), hm]
        simp only [List.append_assoc]
  obtain ⟨b, hb1, hb2⟩ := hblk
  unfold rd wr
  rw [hb1, Res.ok_bind, if_pos (by omega), Res.ok_bind,
    sha3AbsorbQueue_ok (r := r) hr2 (by rw [List.length_set, g2]) rfl (by simp only []; rw [hst]; exact md_absorb_length _ _),
    Res.ok_bind]
  simp only []
  have hbl : ((mm.set (r - 1) (b ||| 1#8 <<< 7)).take r).length = r := by simp; omega
  have hst' : absorb s.state ((mm.set (r - 1) (b ||| 1#8 <<< 7)).take r) =
      md r absorb (List.replicate 200 0) (Keccak.pad r 0x01 m) := by
    rw [← hb2, md_append hr0 ha, md_one hr0 hbl, hst]
  have hsl := md_absorb_length r (Keccak.pad r 0x01 m)
  rw [hst', show 8 * (8 * r) / 64 = r by omega, rdN_ok (by omega), Res.ok_bind,
    wrN_ok (by simp only [List.length_take, List.length_drop, List.length_set]; omega), Res.ok_bind]
  refine ⟨_, rfl, ?_, ?_, rfl, rfl⟩
  · simp only [List.take_zero, List.nil_append, List.drop_zero]
    exact List.take_left' (by rw [List.length_take]; omega)
  · simp only [List.length_append, List.length_take, List.length_drop, List.length_set]; omega

theorem finalizeSha3_holds {r n : Nat} (hr : 1 < r) (hr2 : r ≤ 192) (hn : 0 < n) (hnr : n ≤ r) {s : Sha3Info}
    {m : List Byte} (h : Sha3Holds r n s m) :
    ∃ s', finalizeSha3 s = .ok (true, s') ∧ sha3Digest s' = sponge r 0x01 n m ∧ Sha3Holds r n s' m := by
  obtain ⟨c, h1, h2, h3, h4, h5⟩ := sha3Pad_ok hr hr2 h
  unfold finalizeSha3
  rw [if_pos h.squeeze, h1, Res.ok_bind, h.len, if_neg (by omega), h.size]
  have hloop : sha3SqueezeLoop (8 * n) (8 * n + 1) 0 c [] = .ok (c.message.take n) := by
    rw [show 8 * n + 1 = (8 * n - 1) + 1 + 1 by omega, sha3SqueezeLoop, if_pos (by omega)]
    unfold sha3Refill
    rw [if_neg (by rw [h5]; omega), Res.ok_bind]
    simp only []
    have hb : (if c.squeezeBits > 8 * n - 0 then 8 * n - 0 else c.squeezeBits) = 8 * n := by
      rw [h5]; split <;> omega
    rw [hb, h4, h5, Nat.sub_self, Nat.zero_div, Nat.mul_div_cancel_left _ (by decide), rdN_ok (by omega), Res.ok_bind,
      sha3SqueezeLoop, if_neg (by omega)]
    rfl
  rw [hloop, Res.ok_bind]
  have hol : (c.message.take n).length = n := by simp; omega
  have hdl := h.digest
  have ho2 : ((c.message.take n).drop 0).take n = c.message.take n := by
    rw [List.drop_zero, List.take_take, Nat.min_self]
  rw [rdN_ok (by omega), Res.ok_bind, ho2, wrN_ok (by omega), Res.ok_bind]
  refine ⟨_, rfl, ?_, ⟨h.split, h.message, h.rate, rfl, h.squeeze, rfl, ?_⟩⟩
  · unfold sha3Digest sponge
    simp only []
    have : c.message.take n = (c.message.take r).take n := by rw [List.take_take, Nat.min_eq_left hnr]
    have e := @take_wrN_zero s.digest (c.message.take n)
    rw [hol] at e ⊢
    rw [e, this, h2, List.take_take, Nat.min_eq_left hnr]
  · simp only [List.length_append, List.length_take, List.length_drop]; omega

/-- A turn of the loop that makes no progress: the queue is not empty and the remaining bit count is a multiple of
2^32. -/
theorem sha3AbsorbLoop_stuck {r n : Nat} (hr : 0 < r) (hr2 : r ≤ 192) (datum : List Byte) {len : Nat}
    (hlen : 0 < len) (h32 : 8 * len % 2 ^ 32 = 0) {s : Sha3Info} {m : List Byte}
    (h : Sha3Holds r n s m) (hq : s.bitsInQueue ≠ 0) (fuel : Nat) :
    sha3AbsorbLoop datum (8 * len) fuel 0 s = .fatal := by
  obtain ⟨a, t, _, _, ht, hqt, htake, _⟩ := h.split
  have hml := h.message
  have hrate := h.rate
  have hs : sha3Fill s datum (8 * len) 0 = .ok (s, 0, 0) := by
    unfold sha3Fill
    simp only []
    rw [Nat.sub_zero, h32, if_neg (by rw [hrate]; omega), Nat.zero_mod, rdN_ok (by omega), Res.ok_bind]
    simp only [Nat.sub_self, Nat.zero_div, List.drop_zero, List.take_zero]
    rw [wrN_ok (by rw [hqt]; simp; omega), Res.ok_bind]
    simp
  have hr' : sha3Rest s datum 0 0 = .ok (s, 0) := by
    unfold sha3Rest
    rw [if_neg (by rw [hrate, hqt]; omega), Res.ok_bind, if_neg (by decide)]
  induction fuel with
  | zero => rfl
  | succ fuel ih =>
    unfold sha3AbsorbLoop
    rw [if_pos (by omega), if_pos (Or.inl hq), hs, Res.ok_bind]
    simp only []
    rw [hr', Res.ok_bind]
    exact ih

end Wizard

import Verif.Lemmas.Signature
/-! C135: signatures are SHA-256. -/
namespace Wizard.Props
open Wizard Wizard.Spec.Hash

/-- The state after the bytes `m`. -/
structure SigHolds (s : SignatureInfo) (m : List Byte) : Prop where
  split : ∃ a t, m = a ++ t ∧ 64 ∣ a.length ∧ t.length < 64 ∧ s.offset = t.length ∧ s.message.take t.length = t ∧
    s.digest = (md 64 (SHA2.compress SHA2.p32) SHA2.init256 a).words.map zw
  message : s.message.length = 64
  low : s.low = zw (s.low.setWidth 32)
  count : (s.high.setWidth 32).toNat * 2 ^ 32 + (s.low.setWidth 32).toNat = 8 * m.length % 2 ^ 64

theorem sig_blocks (lsb : Bool) (datum : List Byte) (fuel : Nat) :
    ∀ (s : SignatureInfo) (p n : Nat) (a : List Byte), n < fuel → p + n ≤ datum.length → 64 ∣ a.length → s.message.length = 64 →
      s.digest = (md 64 (SHA2.compress SHA2.p32) SHA2.init256 a).words.map zw →
      ∃ r, signatureBlocks lsb datum fuel s p n = .ok r ∧ r.low = s.low ∧ r.high = s.high ∧ r.message.length = 64 ∧
        ∃ a' t, a ++ (datum.drop p).take n = a' ++ t ∧ 64 ∣ a'.length ∧ t.length < 64 ∧ r.offset = t.length ∧ r.message.take t.length = t ∧
          r.digest = (md 64 (SHA2.compress SHA2.p32) SHA2.init256 a').words.map zw := by
  induction fuel with
  | zero => intro s p n a h; omega
  | succ fuel ih =>
    intro s p n a hf hp ha hm hacc
    unfold signatureBlocks
    by_cases hn : n ≥ 64
    · rw [if_pos hn, rdN_ok (by omega), Res.ok_bind]
      have hb : ((datum.drop p).take 64).length = 64 := by simp; omega
      rw [wrN_ok (by omega), Res.ok_bind]
      generalize hbd : (datum.drop p).take 64 = b at hb
      have hmsg : s.message.take 0 ++ b ++ s.message.drop (0 + b.length) = b := by
        rw [List.take_zero, List.nil_append, List.drop_eq_nil_of_le (by omega), List.append_nil]
      rw [hmsg]
      obtain ⟨r, h1, h2, h3, h5, a', t, h6, h7⟩ := ih (transformSignature lsb { s with message := b }) (p + 64) (n - 64) (a ++ b) (by omega) (by omega)
        (by rw [List.length_append, hb]; exact Nat.dvd_add ha (Nat.dvd_refl _)) hb
        (by rw [md_append (by omega) ha, md_one (by omega) hb]; exact transformSignature_eq lsb { s with message := b } _ hb hacc)
      refine ⟨r, h1, h2, h3, h5, a', t, ?_, h7⟩
      rw [← h6, List.append_assoc, ← hbd]
      congr 1
      obtain ⟨k, rfl⟩ : ∃ k, n = 64 + k := ⟨n - 64, by omega⟩
      rw [← List.drop_drop, List.take_add, Nat.add_sub_cancel_left]
    · rw [if_neg hn, rdN_ok (by omega), Res.ok_bind]
      have hb : ((datum.drop p).take n).length = n := by simp; omega
      rw [wrN_ok (by omega), Res.ok_bind]
      refine ⟨_, rfl, rfl, rfl, ?_, a, (datum.drop p).take n, rfl, ha, by omega, hb.symm, ?_, hacc⟩
      · simp; omega
      · exact take_wrN_zero

theorem sig_count (low high : BitVec 64) (hl : low = zw (low.setWidth 32)) {n L : Nat} (hn : n < 2 ^ 64)
    (h : (high.setWidth 32).toNat * 2 ^ 32 + (low.setWidth 32).toNat = 8 * L % 2 ^ 64) :
    let c := trunc32 (low + (BitVec.ofNat 64 n <<< 3))
    c = zw (c.setWidth 32) ∧
    (((if c < low then high + 1 else high) + (BitVec.ofNat 64 n >>> 29)).setWidth 32).toNat * 2 ^ 32 + (c.setWidth 32).toNat = 8 * (L + n) % 2 ^ 64 := by
  intro c
  have hc : c.setWidth 32 = low.setWidth 32 + BitVec.ofNat 32 (n <<< 3) := by
    show (trunc32 _).setWidth 32 = _
    rw [trunc32_eq, zw_low, add_low, BitVec.setWidth_shiftLeft_of_le (by omega), BitVec.setWidth_ofNat_of_le (by omega)]
    congr 1
    apply BitVec.eq_of_toNat_eq
    simp [BitVec.toNat_shiftLeft, Nat.shiftLeft_eq]
  have hcz : c = zw (c.setWidth 32) := by
    show trunc32 _ = _
    conv => lhs; rw [trunc32_eq]
    congr 1
    show _ = (trunc32 _).setWidth 32
    rw [trunc32_eq, zw_low]
  refine ⟨hcz, ?_⟩
  have hlt : (c < low) ↔ (low.setWidth 32 + BitVec.ofNat 32 (n <<< 3) < low.setWidth 32) := by
    rw [← hc, BitVec.lt_def, BitVec.lt_def]
    conv => lhs; rw [hcz, hl, zw_toNat, zw_toNat]
  have hhigh : (BitVec.ofNat 64 n >>> 29).setWidth 32 = BitVec.ofNat 32 (n / 2 ^ 29) := by
    apply BitVec.eq_of_toNat_eq
    rw [BitVec.toNat_setWidth, BitVec.toNat_ushiftRight, BitVec.toNat_ofNat, BitVec.toNat_ofNat, Nat.mod_eq_of_lt hn, Nat.shiftRight_eq_div_pow]
  have := count_step (w := 32) (by omega) (low.setWidth 32) (high.setWidth 32) (BitVec.ofNat 32 (n / 2 ^ 29)) n L (by rw [BitVec.toNat_ofNat]) h
  rw [hc, add_low, hhigh]
  have hif : (if c < low then high + 1 else high).setWidth 32 =
      (if low.setWidth 32 + BitVec.ofNat 32 (n <<< 3) < low.setWidth 32 then high.setWidth 32 + 1 else high.setWidth 32) := by
    by_cases h1 : c < low
    · rw [if_pos h1, if_pos (hlt.1 h1), add_low]; rfl
    · rw [if_neg h1, if_neg (fun e => h1 (hlt.2 e))]
  rw [hif]
  exact this

theorem sig_update (lsb : Bool) {s : SignatureInfo} {m : List Byte} (h : SigHolds s m) {d : List Byte} (hd : d.length < 2 ^ 64) :
    ∃ r, updateSignature lsb s d d.length = .ok r ∧ SigHolds r (m ++ d) := by
  obtain ⟨a, t, hm, ha, ht, hoff, htake, hacc⟩ := h.split
  have hml := h.message
  obtain ⟨hlow, hcnt⟩ := sig_count s.low s.high h.low hd h.count
  rw [← List.length_append] at hcnt
  unfold updateSignature
  simp only [] at hlow hcnt ⊢
  generalize trunc32 (s.low + (BitVec.ofNat 64 d.length <<< 3)) = lo at hlow hcnt ⊢
  generalize (if lo < s.low then s.high + 1 else s.high) + (BitVec.ofNat 64 d.length >>> 29) = hi at hcnt ⊢
  by_cases h0 : s.offset ≠ 0
  · rw [if_pos h0]
    generalize hi' : (if 64 - s.offset > d.length then d.length else 64 - s.offset) = i
    have hil : i ≤ d.length ∧ i ≤ 64 - s.offset := by rw [← hi']; split <;> omega
    have hblen : ((d.drop 0).take i).length = i := by simp; omega
    rw [rdN_ok (by omega), Res.ok_bind, wrN_ok (by rw [hblen]; omega), Res.ok_bind]
    generalize hb : (d.drop 0).take i = b at hblen
    have hdb : d = b ++ (d.drop i).take (d.length - i) := by
      rw [← hb, List.drop_zero, List.take_of_length_le (l := d.drop i) (by simp), List.take_append_drop]
    have hpre : (s.message.take s.offset ++ b ++ s.message.drop (s.offset + b.length)).take (t ++ b).length = t ++ b := by
      rw [hoff, htake]; exact List.take_left' rfl
    have hlen : (s.message.take s.offset ++ b ++ s.message.drop (s.offset + b.length)).length = 64 := by simp; omega
    by_cases h1 : s.offset + i ≠ 64
    · rw [if_pos h1]
      have hid : i = d.length := by
        rw [← hi'] at h1 ⊢
        split
        · rfl
        · rename_i hc; rw [if_neg hc] at h1; omega
      have hdb' : d = b := by rw [← hb, hid]; simp
      refine ⟨_, rfl, ⟨a, t ++ b, ?_, ha, ?_, ?_, ?_, hacc⟩, hlen, hlow, hcnt⟩
      · rw [hm, List.append_assoc]; exact congrArg (fun x => a ++ (t ++ x)) hdb'
      · rw [List.length_append, hblen]; omega
      · rw [List.length_append, hblen]; simp only []; omega
      · exact hpre
    · rw [if_neg h1]
      have htb : (t ++ b).length = 64 := by rw [List.length_append, hblen]; omega
      have hmsg : s.message.take s.offset ++ b ++ s.message.drop (s.offset + b.length) = t ++ b := by
        have := hpre
        rw [htb, ← hlen, List.take_length] at this
        exact this
      rw [hmsg]
      obtain ⟨r, g1, g2, g3, g5, a', t', g6, g7⟩ := sig_blocks lsb d (d.length + 1)
        (transformSignature lsb ⟨s.digest, lo, hi, s.offset + i, t ++ b⟩) i (d.length - i) (a ++ (t ++ b)) (by omega) (by omega)
        (by rw [List.length_append, htb]; exact Nat.dvd_add ha (Nat.dvd_refl _)) htb
        (by rw [md_append (by omega) ha, md_one (by omega) htb]; exact transformSignature_eq lsb ⟨s.digest, lo, hi, s.offset + i, t ++ b⟩ _ htb hacc)
      refine ⟨r, g1, ⟨a', t', ?_, g7⟩, g5, by rw [g2]; exact hlow, by rw [g2, g3]; exact hcnt⟩
      rw [← g6, hm, List.append_assoc, List.append_assoc, List.append_assoc, ← hdb]
  · rw [if_neg h0]
    have ht0 : t = [] := List.length_eq_zero_iff.mp (by omega)
    obtain ⟨r, g1, g2, g3, g5, a', t', g6, g7⟩ := sig_blocks lsb d (d.length + 1) ⟨s.digest, lo, hi, s.offset, s.message⟩ 0 d.length a (by omega) (by omega) ha hml hacc
    refine ⟨r, g1, ⟨a', t', ?_, g7⟩, g5, by rw [g2]; exact hlow, by rw [g2, g3]; exact hcnt⟩
    rw [← g6, hm, ht0, List.append_nil, List.drop_zero, List.take_length]

theorem sig_bytes (x : BitVec 64) : sigWordBytes x = shaWordBytes (x.setWidth 32) := by
  have e : ∀ n, n ≤ 24 → (x >>> n).setWidth 8 = ((x.setWidth 32) >>> n).setWidth 8 := by
    intro n hn
    apply BitVec.eq_of_getLsbD_eq
    intro i hi
    simp only [BitVec.getLsbD_setWidth, BitVec.getLsbD_ushiftRight]
    grind
  show [_, _, _, _] = [_, _, _, _]
  rw [e 24 (by omega), e 16 (by omega), e 8 (by omega)]
  have e0 : x.setWidth 8 = ((x.setWidth 32) >>> 0).setWidth 8 := by
    apply BitVec.eq_of_getLsbD_eq
    intro i hi
    simp only [BitVec.getLsbD_setWidth, BitVec.getLsbD_ushiftRight]
    grind
  rw [e0]

theorem sig_finalize (lsb : Bool) {s : SignatureInfo} {m : List Byte} (h : SigHolds s m) :
    ∃ r, finalizeSignature lsb s = .ok r ∧ r.digest = (md 64 (SHA2.compress SHA2.p32) SHA2.init256 (pad 64 8 m (be 8 (8 * m.length)))).words.map zw := by
  obtain ⟨a, t, hm, ha, ht, hoff, htake, hacc⟩ := h.split
  have hml := h.message
  have hmod : m.length % 64 = t.length := by
    obtain ⟨q, hq⟩ := ha
    rw [hm, List.length_append, hq, Nat.mul_add_mod, Nat.mod_eq_of_lt ht]
  have hcount : ((s.low >>> 3) &&& 0x3f#64).toNat = t.length := by
    have h1 := count_offset (w := 32) (k := 6) (by omega) _ _ _ h.count
    rw [show (2:Nat) ^ 6 = 64 from rfl, hmod] at h1
    rw [← h1, h.low, zw_low]
    rw [BitVec.toNat_and, BitVec.toNat_and, BitVec.toNat_ushiftRight, BitVec.toNat_ushiftRight, zw_toNat]
    rfl
  have hbytes : sigWordBytes s.high ++ sigWordBytes s.low = be 8 (8 * m.length) := by
    rw [sig_bytes, sig_bytes]
    exact shaLength_be (sha256Alg_ok lsb) h.count
  have hblen : (sigWordBytes s.high ++ sigWordBytes s.low).length = 8 := rfl
  -- the common end
  have fin : ∀ (g : List (BitVec 64)) (v : SHA2.V 32) (off : Nat) (mm x : List Byte), g = v.words.map zw → mm.length = 64 → x.length = 56 → mm.take 56 = x →
      ∃ r, (do
        let m ← wrN mm 56 (sigWordBytes s.high ++ sigWordBytes s.low)
        Res.ok (transformSignature lsb ⟨g, s.low, s.high, off, m⟩)) = .ok r ∧
        r.digest = (SHA2.compress SHA2.p32 v (x ++ be 8 (8 * m.length))).words.map zw := by
    intro g v off mm x hg h1 h2 h3
    rw [wrN_ok (by rw [hblen]; omega), Res.ok_bind]
    have hx : mm.take 56 ++ (sigWordBytes s.high ++ sigWordBytes s.low) ++ mm.drop (56 + (sigWordBytes s.high ++ sigWordBytes s.low).length) =
        x ++ be 8 (8 * m.length) := by
      rw [h3, hbytes, List.drop_eq_nil_of_le (by rw [be_length]; omega), List.append_nil]
    rw [hx]
    exact ⟨_, rfl, transformSignature_eq lsb ⟨g, s.low, s.high, off, x ++ be 8 (8 * m.length)⟩ v (by simp [be_length, h2]) hg⟩
  unfold finalizeSignature
  simp only []
  rw [hcount]
  unfold wr
  rw [if_pos (by omega), Res.ok_bind]
  have hset : (s.message.set t.length 0x80).take (t.length + 1) = t ++ [0x80] := by
    rw [List.take_add_one, List.take_set_of_le (Nat.le_refl _), htake, List.getElem?_set_self (by omega)]; rfl
  have hsetl : (s.message.set t.length 0x80).length = 64 := by rw [List.length_set, hml]
  generalize s.message.set t.length 0x80 = mm at hset hsetl
  by_cases hc : t.length + 1 ≤ 64 - 8
  · rw [if_pos hc, wrN_ok (by rw [List.length_replicate]; omega)]
    simp only [Res.ok_bind]
    obtain ⟨r, h1, h2⟩ := fin s.digest _ s.offset
      (mm.take (t.length + 1) ++ List.replicate (64 - 8 - (t.length + 1)) 0 ++ mm.drop (t.length + 1 + (List.replicate (64 - 8 - (t.length + 1)) (0 : Byte)).length))
      (t ++ [0x80] ++ List.replicate (64 - 8 - (t.length + 1)) 0) hacc
      (by simp; omega) (by simp; omega)
      (by rw [hset]; exact List.take_left' (by simp; omega))
    refine ⟨r, h1, ?_⟩
    rw [h2]
    have hz : (2 * 64 - 1 - 8 - m.length % 64) % 64 = 64 - 8 - (t.length + 1) := by rw [hmod]; omega
    unfold pad
    rw [hz]
    have e : m ++ 0x80 :: List.replicate (64 - 8 - (t.length + 1)) (0 : Byte) ++ be 8 (8 * m.length) =
        a ++ (t ++ [0x80] ++ List.replicate (64 - 8 - (t.length + 1)) 0 ++ be 8 (8 * m.length)) := by
      generalize be 8 (8 * m.length) = bb
      rw [hm]; simp only [List.append_assoc, List.cons_append, List.nil_append]
    have hl : (t ++ [0x80] ++ List.replicate (64 - 8 - (t.length + 1)) (0 : Byte) ++ be 8 (8 * m.length)).length = 64 := by
      rw [List.length_append, be_length]; simp; omega
    rw [e, md_append (by omega) ha, md_one (by omega) hl]
  · rw [if_neg hc, wrN_ok (by rw [List.length_replicate]; omega)]
    simp only [Res.ok_bind]
    have hblk : mm.take (t.length + 1) ++ List.replicate (64 - (t.length + 1)) 0 ++
        mm.drop (t.length + 1 + (List.replicate (64 - (t.length + 1)) (0 : Byte)).length) = t ++ [0x80] ++ List.replicate (64 - (t.length + 1)) 0 := by
      rw [hset, List.drop_eq_nil_of_le (by simp; omega), List.append_nil]
    rw [hblk]
    have hl1 : (t ++ [0x80] ++ List.replicate (64 - (t.length + 1)) (0 : Byte)).length = 64 := by simp; omega
    have htr := transformSignature_eq lsb ⟨s.digest, s.low, s.high, s.offset, t ++ [0x80] ++ List.replicate (64 - (t.length + 1)) 0⟩ _ hl1 hacc
    generalize htl : (t ++ [0x80] ++ List.replicate (64 - (t.length + 1)) (0 : Byte)) = bl at hl1 htr ⊢
    have hmsg : (transformSignature lsb ⟨s.digest, s.low, s.high, s.offset, bl⟩).message = bl := rfl
    rw [hmsg, wrN_ok (by rw [List.length_replicate]; omega)]
    simp only [Res.ok_bind]
    obtain ⟨r, h1, h2⟩ := fin (transformSignature lsb ⟨s.digest, s.low, s.high, s.offset, bl⟩).digest _ s.offset
      (bl.take 0 ++ List.replicate (64 - 8) 0 ++ bl.drop (0 + (List.replicate (64 - 8) (0 : Byte)).length)) (List.replicate 56 0) htr
      (by simp; omega) (by simp) (by rw [List.take_zero, List.nil_append]; exact List.take_left' (by simp))
    refine ⟨r, h1, ?_⟩
    rw [h2]
    have hz : (2 * 64 - 1 - 8 - m.length % 64) % 64 = (64 - (t.length + 1)) + 56 := by rw [hmod]; omega
    unfold pad
    rw [hz, ← List.replicate_append_replicate]
    have e : m ++ 0x80 :: (List.replicate (64 - (t.length + 1)) (0 : Byte) ++ List.replicate 56 0) ++ be 8 (8 * m.length) =
        a ++ (bl ++ (List.replicate 56 0 ++ be 8 (8 * m.length))) := by
      generalize be 8 (8 * m.length) = bb
      rw [hm, ← htl]; simp only [List.append_assoc, List.cons_append, List.nil_append]
    have hl : (List.replicate 56 (0 : Byte) ++ be 8 (8 * m.length)).length = 64 := by
      rw [List.length_append, be_length]; simp
    rw [e, md_append (by omega) ha, md_append (by omega) (by rw [hl1]; exact Nat.dvd_refl _), md_one (by omega) hl1, md_one (by omega) hl]

theorem sig_start : SigHolds getSignatureInfo [] where
  split := ⟨[], [], rfl, by simp, by simp, rfl, rfl, by
    rw [md_short (by simp), ← (sha2_inits true).2.1]
    show [_, _, _, _, _, _, _, _] = [_, _, _, _, _, _, _, _]
    decide +kernel⟩
  message := by simp [getSignatureInfo]
  low := by decide
  count := by decide

theorem sig_updates (lsb : Bool) (parts : List (List Byte)) : ∀ {s : SignatureInfo} {m : List Byte}, SigHolds s m → (∀ p ∈ parts, p.length < 2 ^ 64) →
    ∃ r, parts.foldlM (fun s p => updateSignature lsb s p p.length) s = .ok r ∧ SigHolds r (m ++ parts.flatten) := by
  induction parts with
  | nil => intro s m h _; exact ⟨s, rfl, by simpa using h⟩
  | cons p ps ih =>
    intro s m h hp
    obtain ⟨r, h1, h2⟩ := sig_update lsb h (hp p (List.mem_cons_self ..))
    obtain ⟨r', h3, h4⟩ := ih h2 (fun q hq => hp q (List.mem_cons_of_mem _ hq))
    refine ⟨r', ?_, by simpa using h4⟩
    rw [List.foldlM_cons, h1]
    exact h3

/-- **C135** For every message, cut into parts in every way, on machines of either byte order: `GetSignatureInfo`, `UpdateSignature` of each part
and `FinalizeSignature` leave in `digest` the words of the SHA-256 digest of the whole message, whatever its length. -/
theorem C135_sha256 (lsb : Bool) (parts : List (List Byte)) (hp : ∀ p ∈ parts, p.length < 2 ^ 64) :
    ∃ s, signatureSession lsb parts = .ok s ∧ s.digest.length = 8 ∧ (∀ x ∈ s.digest, x.toNat < 2 ^ 32) ∧
      s.digest.flatMap (fun x => be 4 x.toNat) = SHA2.sha256 parts.flatten := by
  obtain ⟨r, h1, h2⟩ := sig_updates lsb parts sig_start hp
  obtain ⟨r', h3, h4⟩ := sig_finalize lsb h2
  refine ⟨r', by unfold signatureSession; rw [h1]; exact h3, by rw [h4]; simp [SHA2.V.words], ?_, ?_⟩
  · intro x hx
    rw [h4] at hx
    obtain ⟨y, _, rfl⟩ := List.mem_map.mp hx
    rw [zw_toNat]; exact y.isLt
  · rw [h4, List.nil_append, ← sha256Fn lsb, sha256FnL, List.flatMap_map]
    simp only [zw_toNat]
    generalize md 64 (SHA2.compress SHA2.p32) SHA2.init256 _ = v
    simp only [SHA2.V.words, List.flatMap_cons, List.flatMap_nil]
    rw [List.take_of_length_le (by simp [be_length])]

/-- Two parts, and an empty one. -/
example : ∀ p ∈ [[97, 98], [], [(99 : Byte)]], p.length < 2 ^ 64 := by decide

end Wizard.Props

import Verif.Model.Reservoir
import Verif.Spec.Reservoir
import Verif.Lemmas.KeyringWrite
import Verif.Lemmas.CRC64
/-! Reading and writing the entropy reservoir. -/
namespace Wizard
open Spec.Hash Spec.Reservoir

/-! ### Numbers in bytes -/

theorem le_succ (k v : Nat) : le (k + 1) v = BitVec.ofNat 8 v :: le k (v / 256) := by
  unfold le
  rw [List.range_succ_eq_map, List.map_cons, List.map_map]
  simp only [Nat.pow_zero, Nat.div_one]
  congr 1
  apply List.map_congr_left
  intro i _
  simp only [Function.comp_apply, Nat.succ_eq_add_one, Nat.pow_succ]
  rw [Nat.div_div_eq_div_mul, Nat.mul_comm]

/-- Every byte string is a number. -/
theorem le_surj : ∀ l : List Byte, ∃ v, v < 256 ^ l.length ∧ l = le l.length v
  | [] => ⟨0, by simp, rfl⟩
  | b :: l => by
    obtain ⟨v, h1, h2⟩ := le_surj l
    refine ⟨b.toNat + 256 * v, ?_, ?_⟩
    · rw [List.length_cons, Nat.pow_succ]
      have := b.isLt
      omega
    · rw [List.length_cons, le_succ]
      have hb := b.isLt
      have h3 : (b.toNat + 256 * v) / 256 = v := by omega
      have h4 : BitVec.ofNat 8 (b.toNat + 256 * v) = b := by
        apply BitVec.eq_of_toNat_eq
        rw [BitVec.toNat_ofNat]; omega
      rw [h3, h4, ← h2]

theorem le_inj : ∀ {k a b : Nat}, a < 256 ^ k → b < 256 ^ k → le k a = le k b → a = b
  | 0, a, b, ha, hb, _ => by simp at ha hb; omega
  | k + 1, a, b, ha, hb, h => by
    rw [le_succ, le_succ] at h
    injection h with h1 h2
    have h3 := le_inj (k := k) (a := a / 256) (b := b / 256) (by rw [Nat.pow_succ] at ha; omega) (by rw [Nat.pow_succ] at hb; omega) h2
    have h4 := congrArg BitVec.toNat h1
    rw [BitVec.toNat_ofNat, BitVec.toNat_ofNat] at h4
    omega

theorem split2 {u : List Byte} (h : 2 ≤ u.length) : ∃ (v : BitVec 16) (u' : List Byte), u = le 2 v.toNat ++ u' := by
  obtain ⟨v, h1, h2⟩ := le_surj (u.take 2)
  have hl : (u.take 2).length = 2 := by rw [List.length_take]; omega
  rw [hl] at h1 h2
  refine ⟨BitVec.ofNat 16 v, u.drop 2, ?_⟩
  rw [BitVec.toNat_ofNat, Nat.mod_eq_of_lt h1, ← h2, List.take_append_drop]

theorem split4 {u : List Byte} (h : 4 ≤ u.length) : ∃ v u', v < 2 ^ 32 ∧ u = le 4 v ++ u' := by
  obtain ⟨v, h1, h2⟩ := le_surj (u.take 4)
  have hl : (u.take 4).length = 4 := by rw [List.length_take]; omega
  rw [hl] at h1 h2
  exact ⟨v, u.drop 4, h1, by rw [← h2, List.take_append_drop]⟩

theorem split8 {u : List Byte} (h : 8 ≤ u.length) : ∃ (v : BitVec 64) (u' : List Byte), u = le 8 v.toNat ++ u' := by
  obtain ⟨v, h1, h2⟩ := le_surj (u.take 8)
  have hl : (u.take 8).length = 8 := by rw [List.length_take]; omega
  rw [hl] at h1 h2
  refine ⟨BitVec.ofNat 64 v, u.drop 8, ?_⟩
  rw [BitVec.toNat_ofNat, Nat.mod_eq_of_lt h1, ← h2, List.take_append_drop]

theorem le2_inj {a b : BitVec 16} (h : le 2 a.toNat = le 2 b.toNat) : a = b :=
  BitVec.eq_of_toNat_eq (le_inj a.isLt b.isLt h)

theorem le8_inj {a b : BitVec 64} (h : le 8 a.toNat = le 8 b.toNat) : a = b :=
  BitVec.eq_of_toNat_eq (le_inj a.isLt b.isLt h)

/-! ### The checksum -/

theorem getCrc_eq (table : List (BitVec 64)) {s : StringInfo} (h : s.WF) : getStringInfoCrc table s = .ok (checksum s.bytes) := by
  have h0 : Crc64Holds (initializeCrc64 (acquireCrc64 table)) [] := initializeCrc64_holds (by simp [acquireCrc64])
  obtain ⟨c, h1, h2⟩ := updateCrc64_holds h0 h
  obtain ⟨d, h3, _, h4⟩ := finalizeCrc64_holds h2
  unfold getStringInfoCrc
  rw [h1, Res.ok_bind, h3, Res.ok_bind, h4.crc]
  rfl

theorem checksum_burst {a b : List Byte} (h : Spec.CRC.Burst 64 a b) (hne : a ≠ b) : checksum a ≠ checksum b := by
  intro hc
  apply crc64_burst h hne
  unfold Spec.CRC.crc64
  unfold checksum at hc
  rw [hc]

/-! ### Reading -/

/-- The header is not there. -/
theorem expectBytes_bad {fuel : Nat} {f : FileIO} {s : StringInfo} {u : List Byte} (hs : s.WF) (hl : s.length < 2 ^ 32)
    (hc : Calm f u) (hu : ¬ s.bytes <+: u) (hf : f.sched.length + s.length + 16 < fuel) : expectBytes fuel f s = .ub := by
  by_cases hlen : u.length < s.length
  · exact expectBytes_short hs hl hc hlen hf
  obtain ⟨c, c1, c2, c3, c4, _⟩ := Props.C03_clone s hs (by unfold sizeMax maxCipherBlocksize; omega)
  have hbl := StringInfo.bytes_length hs
  unfold expectBytes
  rw [c1, Res.ok_bind, c3]
  have hcd : s.length + 128 ≤ c.datum.length := by
    have : c.length + 128 ≤ c.datum.length := c2
    omega
  obtain ⟨f', h1, _⟩ := readFileChunk_calm (fuel := fuel) (n := s.length) (buf := c.datum) hc (by omega) (by omega)
  rw [h1, Res.ok_bind]
  simp only []
  have hwf : (⟨s.length, u.take s.length ++ c.datum.drop (min s.length u.length)⟩ : StringInfo).WF := by
    unfold StringInfo.WF maxCipherBlocksize; simp; omega
  obtain ⟨o, o1, o2⟩ := compare_eq hwf hs
  rw [o1, Res.ok_bind, if_pos]
  refine .inr (fun h0 => hu ?_)
  have := o2.mp h0
  simp only [StringInfo.bytes] at this
  rw [List.take_append_of_le_length (by rw [List.length_take]; omega), List.take_take, Nat.min_self] at this
  rw [← hbl] at this
  exact ⟨u.drop s.bytes.length, by
    conv => lhs; lhs; rw [show s.bytes = s.datum.take s.length from rfl]
    rw [← hbl, ← this, hbl, List.take_append_drop]⟩

/-- What the checksum accepts. -/
def Accepted (n : Nat) (w : List Byte) : Prop := n + 8 ≤ w.length ∧ (w.drop n).take 8 = le 8 (checksum (w.take n)).toNat

theorem readEntropy_eq {fuel n : Nat} {f : FileIO} {w : List Byte} (table : List (BitVec 64)) (hc : Calm f w) (hn : n < 2 ^ 32)
    (hf : f.sched.length + n + 16 < fuel) :
    (Accepted n w ∧ ∃ s, readEntropy fuel table f (BitVec.ofNat 64 n) = .ok (some s) ∧ s.WF ∧ s.bytes = w.take n) ∨
    (¬ Accepted n w ∧ readEntropy fuel table f (BitVec.ofNat 64 n) = .ok none) := by
  unfold readEntropy
  rw [toNat_ofNat64 hn, acquire_lt hn, Res.ok_bind]
  simp only []
  obtain ⟨f1, e1, c1, s1⟩ := readFileChunk_calm (fuel := fuel) (n := n) (buf := List.replicate (n + 128) 0) hc (by simp) (by omega)
  rw [e1, Res.ok_bind]
  simp only []
  have hwf : (⟨n, w.take n ++ (List.replicate (n + 128) 0).drop (min n w.length)⟩ : StringInfo).WF := by
    unfold StringInfo.WF maxCipherBlocksize; simp; omega
  rw [getCrc_eq table hwf]
  by_cases hl : n ≤ w.length
  · have hb : (⟨n, w.take n ++ (List.replicate (n + 128) 0).drop (min n w.length)⟩ : StringInfo).bytes = w.take n := by
      simp only [StringInfo.bytes]
      rw [List.take_append_of_le_length (by rw [List.length_take]; omega), List.take_take, Nat.min_self]
    rw [hb]
    by_cases h8 : n + 8 ≤ w.length
    · obtain ⟨v, u', hv⟩ := split8 (u := w.drop n) (by rw [List.length_drop]; omega)
      have ht8 : (w.drop n).take 8 = le 8 v.toNat := by
        rw [hv]; exact List.take_left' (le_length ..)
      rcases read64_pre (fuel := fuel) (v := v) (t := u') 0 c1 (by rw [hv]; exact List.prefix_refl _) (by omega) with
        ⟨u2, f2, _, _, e2, _⟩ | ⟨f2, h2, _⟩
      · rw [e2, Res.ok_bind, Res.ok_bind]
        simp only []
        by_cases hcs : v = checksum (w.take n)
        · refine .inl ⟨⟨h8, by rw [ht8, hcs]⟩, _, ?_, hwf, hb⟩
          rw [if_neg]
          simp [hl, hcs]
        · refine .inr ⟨fun h => hcs ?_, ?_⟩
          · have := h.2
            rw [ht8] at this
            exact le8_inj this
          · rw [if_pos (.inr hcs)]
      · rw [List.length_drop] at h2; omega
    · obtain ⟨f2, e2, _⟩ := readFile64_short 0 c1 (by rw [List.length_drop]; omega) (by omega) (fuel := fuel)
      rw [e2, Res.ok_bind, Res.ok_bind]
      refine .inr ⟨fun h => h8 h.1, ?_⟩
      rw [if_pos (.inl (by simp))]
  · have hd : w.drop n = [] := List.drop_of_length_le (by omega)
    obtain ⟨f2, e2, _⟩ := readFile64_short 0 c1 (by rw [List.length_drop]; omega) (by omega) (fuel := fuel)
    rw [e2, Res.ok_bind, Res.ok_bind]
    refine .inr ⟨fun h => hl (by have := h.1; omega), ?_⟩
    rw [if_pos (.inl (by simp))]

/-- The part of a file before its entropy. -/
def prelude (a b : BitVec 16) (ts : BitVec 64) (n : Nat) : List Byte :=
  le 2 a.toNat ++ (le 2 b.toNat ++ ((if a = 1 ∧ b = 0 then [] else le 8 ts.toNat) ++ le 4 n))

/-- The part of a file before its entropy is complete. -/
def Complete (u : List Byte) : Prop := if le 2 1 ++ le 2 0 <+: u then 8 ≤ u.length else 16 ≤ u.length

theorem two_ne {a b : BitVec 16} {u : List Byte} (h : le 2 1 ++ le 2 0 <+: le 2 a.toNat ++ (le 2 b.toNat ++ u)) : a = 1 ∧ b = 0 := by
  obtain ⟨t, ht⟩ := h
  rw [List.append_assoc] at ht
  have h1 := List.append_inj ht (by rw [le_length, le_length])
  have h2 := List.append_inj h1.2 (by rw [le_length, le_length])
  exact ⟨(le2_inj (a := 1) h1.1).symm, (le2_inj (a := 0) h2.1).symm⟩

theorem two_eq (u : List Byte) : le 2 1 ++ le 2 0 <+: le 2 (1 : BitVec 16).toNat ++ (le 2 (0 : BitVec 16).toNat ++ u) :=
  ⟨u, by rw [List.append_assoc]; rfl⟩

theorem complete_split {u : List Byte} (h : Complete u) : ∃ a b ts n w, n < 2 ^ 32 ∧ u = prelude a b ts n ++ w := by
  have h8 : 8 ≤ u.length := by
    unfold Complete at h; split at h <;> omega
  obtain ⟨a, u1, rfl⟩ := split2 (u := u) (by omega)
  rw [List.length_append, le_length] at h8
  obtain ⟨b, u2, rfl⟩ := split2 (u := u1) (by omega)
  rw [List.length_append, le_length] at h8
  unfold prelude
  by_cases ho : a = 1 ∧ b = 0
  · obtain ⟨n, u3, hn, rfl⟩ := split4 (u := u2) (by omega)
    exact ⟨a, b, 0, n, u3, hn, by rw [if_pos ho]; simp⟩
  · have h16 : 16 ≤ (le 2 a.toNat ++ (le 2 b.toNat ++ u2)).length := by
      unfold Complete at h
      rwa [if_neg (fun hp => ho (two_ne hp))] at h
    rw [List.length_append, List.length_append, le_length, le_length] at h16
    obtain ⟨ts, u3, rfl⟩ := split8 (u := u2) (by omega)
    rw [List.length_append, le_length] at h16
    obtain ⟨n, u4, hn, rfl⟩ := split4 (u := u3) (by omega)
    exact ⟨a, b, ts, n, u4, hn, by rw [if_neg ho]; simp⟩

/-- What the object has read. -/
def stamped (r : ReservoirInfo) (a b : BitVec 16) (ts : BitVec 64) : ReservoirInfo :=
  ⟨a, b, if a = 1 ∧ b = 0 then r.timestamp else ts⟩

theorem readStamp_old (fuel : Nat) (junk : BitVec 64) (f : FileIO) (r : ReservoirInfo) (h : r.major = 1 ∧ r.minor = 0) :
    readStamp fuel junk f r = .ok (true, r, f) := by
  unfold readStamp
  rw [if_neg]
  rintro (h' | h')
  · exact h' h.1
  · exact h' h.2

theorem readStamp_new (fuel : Nat) (junk : BitVec 64) (f : FileIO) (r : ReservoirInfo) (h : ¬ (r.major = 1 ∧ r.minor = 0)) :
    readStamp fuel junk f r = (do
      let d ← readFile64 fuel f junk
      Res.ok (d.1, { r with timestamp := d.2.1 }, d.2.2)) := by
  unfold readStamp
  rw [if_pos]
  by_cases h1 : r.major = 1
  · exact .inr (fun h2 => h ⟨h1, h2⟩)
  · exact .inl h1

/-- After the header. -/
def readBody (fuel : Nat) (junk : BitVec 64) (table : List (BitVec 64)) (f : FileIO) (r : ReservoirInfo) :
    Res (Option StringInfo × ReservoirInfo) := do
  let a ← readFile16 fuel f r.major
  let b ← readFile16 fuel a.2.2 r.minor
  let d ← readStamp fuel junk b.2.2 { r with major := a.2.1, minor := b.2.1 }
  let l ← readFile32 fuel d.2.2 junk
  if (a.1 && b.1 && d.1 && l.1) = false then .ub
  else do
    let x ← readEntropy fuel table l.2.2 l.2.1
    .ok (x, d.2.1)

theorem getReservoir_eq (fuel : Nat) (junk : BitVec 64) (table : List (BitVec 64)) (m t : StringInfo) (content : List Byte) (e : IOEnv)
    (r : ReservoirInfo) : getReservoir fuel junk table m t (some content) e r = (do
      let f ← expectBytes fuel (openFile content e) m
      let f ← expectBytes fuel f t
      readBody fuel junk table f r) := rfl

theorem readBody_ok {fuel n : Nat} {f : FileIO} {w : List Byte} (junk : BitVec 64) (table : List (BitVec 64)) (r : ReservoirInfo)
    (a b : BitVec 16) (ts : BitVec 64) (hc : Calm f (prelude a b ts n ++ w)) (hn : n < 2 ^ 32) (hf : f.sched.length + n + 16 < fuel) :
    (Accepted n w ∧ ∃ s, readBody fuel junk table f r = .ok (some s, stamped r a b ts) ∧ s.WF ∧ s.bytes = w.take n) ∨
    (¬ Accepted n w ∧ readBody fuel junk table f r = .ok (none, stamped r a b ts)) := by
  unfold prelude at hc
  rw [List.append_assoc, List.append_assoc] at hc
  unfold readBody
  rcases read16_pre (fuel := fuel) (v := a) r.major hc (List.prefix_refl _) (by omega) with ⟨u1, f1, h1, _, e1, l1⟩ | ⟨_, h, _⟩
  rotate_left
  · rw [List.length_append, le_length] at h; omega
  have := List.append_cancel_left h1
  subst this
  rw [e1, Res.ok_bind]
  simp only []
  have s1 := l1.sched
  rcases read16_pre (fuel := fuel) (v := b) r.minor l1.calm (List.prefix_refl _) (by omega) with ⟨u2, f2, h2, _, e2, l2⟩ | ⟨_, h, _⟩
  rotate_left
  · rw [List.length_append, le_length] at h; omega
  have := List.append_cancel_left h2
  subst this
  rw [e2, Res.ok_bind]
  simp only []
  have s2 := l2.sched
  have key : ∃ f3, readStamp fuel junk f2 ⟨a, b, r.timestamp⟩ = .ok (true, stamped r a b ts, f3) ∧ Left f2 f3 (le 4 n ++ w) := by
    by_cases ho : a = 1 ∧ b = 0
    · refine ⟨f2, ?_, ?_, Nat.le_refl _⟩
      · rw [readStamp_old _ _ _ _ ho]
        unfold stamped
        rw [if_pos ho]
      · have := l2.calm
        rwa [if_pos ho] at this
    · have hc2 := l2.calm
      rw [if_neg ho, List.append_assoc] at hc2
      rcases read64_pre (fuel := fuel) (v := ts) junk hc2 (List.prefix_refl _) (by omega) with ⟨u3, f3, h3, _, e3, l3⟩ | ⟨_, h, _⟩
      · have := List.append_cancel_left h3
        subst this
        refine ⟨f3, ?_, l3⟩
        rw [readStamp_new _ _ _ _ ho, e3, Res.ok_bind]
        unfold stamped
        rw [if_neg ho]
      · rw [List.length_append, le_length] at h; omega
  obtain ⟨f3, e3, l3⟩ := key
  rw [e3, Res.ok_bind]
  simp only []
  have s3 := l3.sched
  rcases read32_pre (fuel := fuel) (v := n) junk l3.calm hn (List.prefix_refl _) (by omega) with ⟨u4, f4, h4, _, e4, l4⟩ | ⟨_, h, _⟩
  rotate_left
  · rw [List.length_append, le_length] at h; omega
  have := List.append_cancel_left h4
  subst this
  rw [e4, Res.ok_bind]
  simp only []
  rw [if_neg (by simp)]
  have s4 := l4.sched
  rcases readEntropy_eq table l4.calm hn (by omega) (fuel := fuel) with ⟨g1, s, g2, g3⟩ | ⟨g1, g2⟩
  · exact .inl ⟨g1, s, by rw [g2, Res.ok_bind], g3⟩
  · exact .inr ⟨g1, by rw [g2, Res.ok_bind]⟩

theorem read16_any {fuel : Nat} {f : FileIO} {u : List Byte} (old : BitVec 16) (hc : Calm f u) (hf : f.sched.length + 16 < fuel) :
    ∃ v f', readFile16 fuel f old = .ok (decide (2 ≤ u.length), v, f') ∧ (2 ≤ u.length → u = le 2 v.toNat ++ u.drop 2) ∧
      Left f f' (u.drop 2) := by
  by_cases h : 2 ≤ u.length
  · obtain ⟨v, u', rfl⟩ := split2 h
    have hd : (le 2 v.toNat ++ u').drop 2 = u' := List.drop_left' (le_length ..)
    rcases read16_pre (fuel := fuel) (v := v) old hc (List.prefix_refl _) hf with ⟨u1, f1, h1, _, e1, l1⟩ | ⟨_, h', _⟩
    · have := List.append_cancel_left h1
      subst this
      exact ⟨v, f1, by rw [e1, decide_eq_true h], fun _ => by rw [hd], by rw [hd]; exact l1⟩
    · omega
  · obtain ⟨f', h1, h2, h3⟩ := readFile16_short old hc (by omega) (by omega) (fuel := fuel)
    exact ⟨old, f', by rw [h1, decide_eq_false h], fun h' => absurd h' h, by
      rw [List.drop_of_length_le (by omega)]; exact ⟨h2, h3⟩⟩

theorem read64_any {fuel : Nat} {f : FileIO} {u : List Byte} (old : BitVec 64) (hc : Calm f u) (hf : f.sched.length + 16 < fuel) :
    ∃ v f', readFile64 fuel f old = .ok (decide (8 ≤ u.length), v, f') ∧ Left f f' (u.drop 8) := by
  by_cases h : 8 ≤ u.length
  · obtain ⟨v, u', rfl⟩ := split8 h
    have hd : (le 8 v.toNat ++ u').drop 8 = u' := List.drop_left' (le_length ..)
    rcases read64_pre (fuel := fuel) (v := v) old hc (List.prefix_refl _) hf with ⟨u1, f1, h1, _, e1, l1⟩ | ⟨_, h', _⟩
    · have := List.append_cancel_left h1
      subst this
      exact ⟨v, f1, by rw [e1, decide_eq_true h], by rw [hd]; exact l1⟩
    · omega
  · obtain ⟨f', h1, h2, h3⟩ := readFile64_short old hc (by omega) (by omega) (fuel := fuel)
    exact ⟨old, f', by rw [h1, decide_eq_false h], by rw [List.drop_of_length_le (by omega)]; exact ⟨h2, h3⟩⟩

theorem read32_any {fuel : Nat} {f : FileIO} {u : List Byte} (old : BitVec 64) (hc : Calm f u) (hf : f.sched.length + 16 < fuel) :
    ∃ v f', readFile32 fuel f old = .ok (decide (4 ≤ u.length), v, f') := by
  by_cases h : 4 ≤ u.length
  · obtain ⟨v, u', hv, rfl⟩ := split4 h
    rcases read32_pre (fuel := fuel) (v := v) old hc hv (List.prefix_refl _) hf with ⟨u1, f1, h1, _, e1, l1⟩ | ⟨_, h', _⟩
    · exact ⟨_, f1, by rw [e1, decide_eq_true h]⟩
    · omega
  · obtain ⟨f', h1, h2, h3⟩ := readFile32_short old hc (by omega) (by omega) (fuel := fuel)
    exact ⟨old, f', by rw [h1, decide_eq_false h]⟩

theorem readBody_short {fuel : Nat} {f : FileIO} {u : List Byte} (junk : BitVec 64) (table : List (BitVec 64)) (r : ReservoirInfo)
    (hc : Calm f u) (hu : ¬ Complete u) (hf : f.sched.length + 16 < fuel) : readBody fuel junk table f r = .ub := by
  unfold readBody
  obtain ⟨a, f1, e1, p1, l1⟩ := read16_any r.major hc hf
  rw [e1, Res.ok_bind]
  simp only []
  have s1 := l1.sched
  obtain ⟨b, f2, e2, p2, l2⟩ := read16_any r.minor l1.calm (by omega) (fuel := fuel)
  rw [e2, Res.ok_bind]
  simp only []
  have s2 := l2.sched
  have hd2 : (u.drop 2).length = u.length - 2 := List.length_drop ..
  have hd4 : ((u.drop 2).drop 2).length = u.length - 2 - 2 := by rw [List.length_drop, hd2]
  by_cases ho : a = 1 ∧ b = 0
  · rw [readStamp_old _ _ _ _ ho, Res.ok_bind]
    simp only []
    obtain ⟨n, f4, e4⟩ := read32_any junk l2.calm (by omega) (fuel := fuel)
    rw [e4, Res.ok_bind, if_pos]
    simp only [Bool.and_true]
    rw [hd4, hd2]
    by_cases h8 : 8 ≤ u.length
    · exfalso
      apply hu
      unfold Complete
      rw [if_pos]
      · exact h8
      · rw [p1 (by omega), p2 (by omega), ho.1, ho.2]
        exact two_eq _
    · simp; omega
  · rw [readStamp_new _ _ _ _ ho]
    obtain ⟨ts, f3, e3, l3⟩ := read64_any junk l2.calm (by omega) (fuel := fuel)
    rw [e3, Res.ok_bind, Res.ok_bind]
    simp only []
    have s3 := l3.sched
    obtain ⟨n, f4, e4⟩ := read32_any junk l3.calm (by omega) (fuel := fuel)
    rw [e4, Res.ok_bind, if_pos]
    simp only [List.length_drop]
    by_cases h16 : 16 ≤ u.length
    · exfalso
      apply hu
      unfold Complete
      rw [if_neg]
      · exact h16
      · rw [p1 (by omega), p2 (by omega)]
        exact fun h => ho (two_ne h)
    · simp; omega

/-! ### Writing over a file -/

theorem put_over {f : FileIO} {base d : List Byte} (hd : f.dead = false) (hc : f.content = d ++ base.drop d.length) (hp : f.pos = d.length)
    (b : List Byte) : (f.put b).content = (d ++ b) ++ base.drop (d ++ b).length := by
  unfold FileIO.put
  rw [hd]
  simp only [Bool.false_eq_true, if_false]
  rw [hp, hc, List.take_left' rfl, List.drop_append, List.drop_of_length_le (by omega), List.nil_append, List.drop_drop,
    List.length_append]
  congr 2
  omega

/-- `d` was written over the start of `base`, or a part of it before the process died; under `A` it does not die. -/
structure Over (A : Prop) (base : List Byte) (N : Nat) (f : FileIO) (d : List Byte) : Prop where
  calm : A → f.dead = false ∧ NoFail f.sched
  sched : f.sched.length ≤ N
  progress : (f.content = d ++ base.drop d.length ∧ f.pos = d.length ∧ Sane f.sched ∧ f.dead = false) ∨
    (f.dead = true ∧ ∃ j, j ≤ d.length ∧ f.content = d.take j ++ base.drop j)

theorem Over.write {A : Prop} {base d : List Byte} {N fuel : Nat} {f : FileIO} (h : Over A base N f d) (c : List Byte) (hf : N + c.length < fuel) :
    ∃ st f', writeFileChunk fuel f c = .ok (st, f') ∧ Over A base N f' (d ++ c) := by
  obtain ⟨ha, hs, hp⟩ := h
  unfold writeFileChunk
  rcases hp with ⟨h1, h2, h3, h4⟩ | ⟨h1, j, h2, h3⟩
  · obtain ⟨st, f', a1, a2, a3⟩ := writeLoop_sane fuel f c 0 h3 h4 (by rw [h1, h2]; simp) (by omega) (by omega)
    refine ⟨st, f', a1, fun hA => noFail_alive fuel f c 0 st f' (ha hA).2 (ha hA).1 a1, by omega, ?_⟩
    rw [List.drop_zero] at a3
    rcases a3 with ⟨b1, b2, b3, b4⟩ | ⟨b1, j, b2, b3⟩
    · rw [put_over h4 h1 h2] at b1
      exact .inl ⟨b1, by rw [b2, h2]; simp, b3, b4⟩
    · rw [put_over h4 h1 h2] at b3
      refine .inr ⟨b1, d.length + j, by simp at b2 ⊢; omega, ?_⟩
      rw [b3, List.take_length_add_append]
      congr 2
      rw [List.length_append, List.length_take]; omega
  · obtain ⟨st, f', a1, a2, a3, a4⟩ := writeLoop_dead fuel f c 0 h1 (by omega)
    refine ⟨st, f', a1, fun hA => noFail_alive fuel f c 0 st f' (ha hA).2 (ha hA).1 a1, by omega, .inr ⟨a3, j, by simp; omega, ?_⟩⟩
    rw [a2, h3, List.take_append_of_le_length h2]

/-- `d` was written over the start of `base`, or the first `n` bytes of it before the process died. -/
structure OverTick (base : List Byte) (n N : Nat) (f : FileIO) (d : List Byte) : Prop where
  sched : f.sched.length ≤ N
  alive : d.length ≤ n → f.content = d ++ base.drop d.length ∧ f.pos = d.length ∧ f.sched = ticks (n - d.length) ∧ f.dead = false
  dead : n < d.length → f.dead = true ∧ f.content = d.take n ++ base.drop n

theorem OverTick.write {base d : List Byte} {n N fuel : Nat} {f : FileIO} (h : OverTick base n N f d) (c : List Byte) (hN : n + 1 ≤ N)
    (hf : N + c.length + 1 < fuel) :
    ∃ st f', writeFileChunk fuel f c = .ok (st, f') ∧ OverTick base n N f' (d ++ c) := by
  unfold writeFileChunk
  by_cases hd : d.length ≤ n
  · obtain ⟨h1, h2, h3, h4⟩ := h.alive hd
    obtain ⟨st, f', a1, a2, a3, a4⟩ := writeLoop_ticks fuel (n - d.length) f c 0 h3 h4 (by rw [h1, h2]; simp) (by omega) (by omega)
    refine ⟨st, f', a1, Nat.le_trans a2 h.sched, ?_, ?_⟩
    · intro hl
      rw [List.length_append] at hl
      obtain ⟨b1, b2, b3, b4⟩ := a3 (by omega)
      rw [List.drop_zero, put_over h4 h1 h2] at b1
      refine ⟨b1, ?_, ?_, b4⟩
      · rw [b2, h2]; simp
      · rw [b3]; congr 1; simp; omega
    · intro hl
      rw [List.length_append] at hl
      obtain ⟨b1, b2⟩ := a4 (by omega)
      rw [List.drop_zero, put_over h4 h1 h2] at b2
      refine ⟨b1, ?_⟩
      rw [b2, List.take_append, List.take_of_length_le hd]
      congr 2
      rw [List.length_append, List.length_take]; omega
  · obtain ⟨h1, h2⟩ := h.dead (by omega)
    obtain ⟨st, f', a1, a2, a3, a4⟩ := writeLoop_dead fuel f c 0 h1 (by have := h.sched; omega)
    refine ⟨st, f', a1, Nat.le_trans a4 h.sched, fun hl => ?_, fun _ => ⟨a3, ?_⟩⟩
    · rw [List.length_append] at hl; omega
    · rw [a2, h2, List.take_append_of_le_length (by omega)]

/-- What `SaveEntropyToReservoir` writes: a time stamp whatever the protocol. -/
def saved (m t : StringInfo) (r : ReservoirInfo) (digest : StringInfo) : List Byte :=
  m.bytes ++ (t.bytes ++ (le 2 r.major.toNat ++ (le 2 r.minor.toNat ++ (le 8 r.timestamp.toNat ++ sealed digest.bytes))))

theorem saveWrites_any (P : FileIO → List Byte → Prop) (table : List (BitVec 64)) {m t digest : StringInfo} {r : ReservoirInfo}
    {fuel : Nat} {f : FileIO} (hh : Header m t) (hd : digest.WF) (hl : digest.length < 2 ^ 32) (h : P f [])
    (hP : ∀ f d c, P f d → c.length ≤ (saved m t r digest).length → ∃ st f', writeFileChunk fuel f c = .ok (st, f') ∧ P f' (d ++ c)) :
    ∃ st f', saveWrites fuel table f m t r digest = .ok (st, f') ∧ P f' (saved m t r digest) := by
  have lm := StringInfo.bytes_length hh.mWF
  have lt := StringInfo.bytes_length hh.tWF
  have ld := StringInfo.bytes_length hd
  have hlen : (saved m t r digest).length = m.length + t.length + 24 + digest.length := by
    unfold saved sealed; simp only [List.length_append, le_length]; omega
  rw [hlen] at hP
  unfold saveWrites
  simp only [writeFile32_eq, writeFile16_eq, writeFile64_eq, rdN_bytes hh.mWF, rdN_bytes hh.tWF, rdN_bytes hd, toNat_ofNat64 hl,
    getCrc_eq table hd]
  rw [Res.ok_bind]
  obtain ⟨s1, f1, e1, h⟩ := hP _ _ m.bytes h (by omega)
  rw [e1, Res.ok_bind, Res.ok_bind]
  simp only []
  obtain ⟨s2, f2, e2, h⟩ := hP _ _ t.bytes h (by omega)
  rw [e2, Res.ok_bind]
  simp only []
  obtain ⟨s3, f3, e3, h⟩ := hP _ _ (le 2 r.major.toNat) h (by rw [le_length]; omega)
  rw [e3, Res.ok_bind]
  simp only []
  obtain ⟨s4, f4, e4, h⟩ := hP _ _ (le 2 r.minor.toNat) h (by rw [le_length]; omega)
  rw [e4, Res.ok_bind]
  simp only []
  obtain ⟨s5, f5, e5, h⟩ := hP _ _ (le 8 r.timestamp.toNat) h (by rw [le_length]; omega)
  rw [e5, Res.ok_bind]
  simp only []
  obtain ⟨s6, f6, e6, h⟩ := hP _ _ (le 4 digest.length) h (by rw [le_length]; omega)
  rw [e6, Res.ok_bind, Res.ok_bind]
  simp only []
  obtain ⟨s7, f7, e7, h⟩ := hP _ _ digest.bytes h (by omega)
  rw [e7, Res.ok_bind, Res.ok_bind]
  simp only []
  obtain ⟨s8, f8, e8, h⟩ := hP _ _ (le 8 (checksum digest.bytes).toNat) h (by rw [le_length]; omega)
  rw [e8, Res.ok_bind]
  refine ⟨_, f8, rfl, ?_⟩
  have : saved m t r digest = [] ++ m.bytes ++ t.bytes ++ le 2 r.major.toNat ++ le 2 r.minor.toNat ++ le 8 r.timestamp.toNat ++
      le 4 digest.length ++ digest.bytes ++ le 8 (checksum digest.bytes).toNat := by
    unfold saved sealed
    rw [ld]
    simp only [List.append_assoc, List.nil_append]
  rw [this]
  exact h

/-- Saving, when nothing fails before the process dies. -/
theorem save_sane {table : List (BitVec 64)} {m t digest : StringInfo} {r : ReservoirInfo} {fuel : Nat} {e : IOEnv} (file : Option (List Byte))
    (hh : Header m t) (hd : digest.WF) (hl : digest.length < 2 ^ 32) (he : Sane e.sched)
    (hf : e.sched.length + (saved m t r digest).length < fuel) :
    ∃ j c, saveEntropy fuel table m t file e r digest = .ok (true, some c) ∧ c = (saved m t r digest).take j ++ (file.getD []).drop j ∧
      j ≤ (saved m t r digest).length ∧ (NoFail e.sched → j = (saved m t r digest).length) := by
  unfold saveEntropy
  obtain ⟨st, f', h1, h2⟩ := saveWrites_any (Over (NoFail e.sched) (file.getD []) e.sched.length) table (f := openFile (file.getD []) e)
    (fuel := fuel) (r := r) hh hd hl ⟨fun h => ⟨rfl, h⟩, Nat.le_refl _, .inl ⟨by simp [openFile], rfl, he, rfl⟩⟩
    (fun f d c h hc => h.write c (by omega))
  rw [h1, Res.ok_bind]
  rcases h2.progress with ⟨p1, _, _, p2⟩ | ⟨p1, j, p2, p3⟩
  · exact ⟨(saved m t r digest).length, _, rfl, by rw [List.take_length]; exact p1, Nat.le_refl _, fun _ => rfl⟩
  · refine ⟨j, _, rfl, p3, p2, fun h => ?_⟩
    rw [(h2.calm h).1] at p1; cases p1

/-- Saving, when the process dies after `j` bytes. -/
theorem save_crash {table : List (BitVec 64)} {m t digest : StringInfo} {r : ReservoirInfo} {fuel j : Nat} (file : Option (List Byte))
    (hh : Header m t) (hd : digest.WF) (hl : digest.length < 2 ^ 32) (hj : j < (saved m t r digest).length)
    (hf : 2 * (saved m t r digest).length + 2 < fuel) :
    saveEntropy fuel table m t file ⟨false, ticks j⟩ r digest = .ok (true, some ((saved m t r digest).take j ++ (file.getD []).drop j)) := by
  unfold saveEntropy
  obtain ⟨st, f', h1, h2⟩ := saveWrites_any (OverTick (file.getD []) j (j + 1)) table (f := openFile (file.getD []) ⟨false, ticks j⟩)
    (fuel := fuel) (r := r) hh hd hl ⟨by simp [openFile, ticks_length], fun _ => ⟨by simp [openFile], rfl, by simp [openFile], rfl⟩,
      fun h => by simp at h⟩
    (fun f d c h hc => h.write c (by omega) (by omega))
  rw [h1, Res.ok_bind, (h2.dead hj).2]

end Wizard

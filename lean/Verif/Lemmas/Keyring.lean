import Verif.Model.Keyring
import Verif.Spec.Keyring
import Verif.Lemmas.File
import Verif.Props.StringInfo
/-! Reading key ring records, complete and torn. -/
namespace Wizard
open Spec.Hash Spec.Keyring

/-- `f'` is what a read left of `f`: `u` remains. -/
structure Left (f f' : FileIO) (u : List Byte) : Prop where
  calm : Calm f' u
  sched : f'.sched.length ≤ f.sched.length

theorem ReadTo.left {f f' : FileIO} {s t : List Byte} (h : ReadTo f f' t) (hc : Calm f s) : Left f f' t :=
  ⟨⟨(h.calm hc.sched).1, (h.calm hc.sched).2.trans hc.eintr, h.rest⟩, h.sched⟩

theorem Left.trans {f f' f'' : FileIO} {u v : List Byte} (h : Left f f' u) (h' : Left f' f'' v) : Left f f'' v :=
  ⟨h'.calm, Nat.le_trans h'.sched h.sched⟩

/-- A prefix of `a ++ t` is shorter than `a` or begins with `a`. -/
theorem prefix_cases {u a t : List Byte} (h : u <+: a ++ t) : (∃ u', u = a ++ u' ∧ u' <+: t) ∨ (u.length < a.length ∧ u <+: a) := by
  by_cases hl : a.length ≤ u.length
  · obtain ⟨w, hw⟩ := h
    refine .inl ⟨u.drop a.length, ?_, ⟨w, ?_⟩⟩
    · have : u.take a.length = a := by
        have := congrArg (List.take a.length) hw
        rw [List.take_append_of_le_length hl, List.take_left' rfl] at this
        exact this
      calc u = u.take a.length ++ u.drop a.length := (List.take_append_drop ..).symm
        _ = _ := by rw [this]
    · have := congrArg (List.drop a.length) hw
      rw [List.drop_append_of_le_length hl, List.drop_left' rfl] at this
      exact this
  · obtain ⟨w, hw⟩ := h
    refine .inr ⟨by omega, ⟨a.drop u.length, ?_⟩⟩
    have := congrArg (List.take u.length) hw
    rw [List.take_left' rfl, List.take_append_of_le_length (by omega)] at this
    conv => lhs; lhs; rw [this]
    exact List.take_append_drop ..

theorem ofNat_low {v : Nat} (h : v < 2 ^ 32) : ((BitVec.ofNat 64 v).setWidth 32).setWidth 64 = BitVec.ofNat 64 v := by
  apply BitVec.eq_of_toNat_eq
  simp only [BitVec.toNat_setWidth, BitVec.toNat_ofNat]
  omega

theorem toNat_ofNat64 {v : Nat} (h : v < 2 ^ 32) : (BitVec.ofNat 64 v).toNat = v := by
  rw [BitVec.toNat_ofNat]; omega

theorem read32_pre {fuel v : Nat} {f : FileIO} {u t : List Byte} (old : BitVec 64) (hc : Calm f u) (hv : v < 2 ^ 32)
    (hu : u <+: le 4 v ++ t) (hf : f.sched.length + 16 < fuel) :
    (∃ u' f', u = le 4 v ++ u' ∧ u' <+: t ∧ readFile32 fuel f old = .ok (true, BitVec.ofNat 64 v, f') ∧ Left f f' u') ∨
    (∃ f', u.length < 4 ∧ readFile32 fuel f old = .ok (false, old, f') ∧ Left f f' []) := by
  rcases prefix_cases hu with ⟨u', rfl, h⟩ | ⟨h, _⟩
  · obtain ⟨f', h1, h2⟩ := readFile32_full (v := BitVec.ofNat 64 v) old hc.sched.noFail (by rw [toNat_ofNat64 hv]; exact hc.rest)
      (by omega) (fuel := fuel)
    rw [ofNat_low hv] at h1
    exact .inl ⟨u', f', rfl, h, h1, h2.left hc⟩
  · rw [le_length] at h
    obtain ⟨f', h1, h2, h3⟩ := readFile32_short old hc h (by omega) (fuel := fuel)
    exact .inr ⟨f', h, h1, h2, h3⟩

theorem read16_pre {fuel : Nat} {v : BitVec 16} {f : FileIO} {u t : List Byte} (old : BitVec 16) (hc : Calm f u)
    (hu : u <+: le 2 v.toNat ++ t) (hf : f.sched.length + 16 < fuel) :
    (∃ u' f', u = le 2 v.toNat ++ u' ∧ u' <+: t ∧ readFile16 fuel f old = .ok (true, v, f') ∧ Left f f' u') ∨
    (∃ f', u.length < 2 ∧ readFile16 fuel f old = .ok (false, old, f') ∧ Left f f' []) := by
  rcases prefix_cases hu with ⟨u', rfl, h⟩ | ⟨h, _⟩
  · obtain ⟨f', h1, h2⟩ := readFile16_full old hc.sched.noFail hc.rest (by omega) (fuel := fuel)
    exact .inl ⟨u', f', rfl, h, h1, h2.left hc⟩
  · rw [le_length] at h
    obtain ⟨f', h1, h2, h3⟩ := readFile16_short old hc h (by omega) (fuel := fuel)
    exact .inr ⟨f', h, h1, h2, h3⟩

theorem read64_pre {fuel : Nat} {v : BitVec 64} {f : FileIO} {u t : List Byte} (old : BitVec 64) (hc : Calm f u)
    (hu : u <+: le 8 v.toNat ++ t) (hf : f.sched.length + 16 < fuel) :
    (∃ u' f', u = le 8 v.toNat ++ u' ∧ u' <+: t ∧ readFile64 fuel f old = .ok (true, v, f') ∧ Left f f' u') ∨
    (∃ f', u.length < 8 ∧ readFile64 fuel f old = .ok (false, old, f') ∧ Left f f' []) := by
  rcases prefix_cases hu with ⟨u', rfl, h⟩ | ⟨h, _⟩
  · obtain ⟨f', h1, h2⟩ := readFile64_full old hc.sched.noFail hc.rest (by omega) (fuel := fuel)
    exact .inl ⟨u', f', rfl, h, h1, h2.left hc⟩
  · rw [le_length] at h
    obtain ⟨f', h1, h2, h3⟩ := readFile64_short old hc h (by omega) (fuel := fuel)
    exact .inr ⟨f', h, h1, h2, h3⟩

theorem readChunk_pre {fuel : Nat} {f : FileIO} {u a t buf : List Byte} (hc : Calm f u)
    (hu : u <+: a ++ t) (hb : a.length ≤ buf.length) (hf : f.sched.length + a.length + 16 < fuel) :
    (∃ u' f', u = a ++ u' ∧ u' <+: t ∧ readFileChunk fuel f buf a.length = .ok (true, a ++ buf.drop a.length, f') ∧ Left f f' u') ∨
    (∃ f', u.length < a.length ∧ u <+: a ∧ readFileChunk fuel f buf a.length = .ok (false, u ++ buf.drop u.length, f') ∧ Left f f' []) := by
  rcases prefix_cases hu with ⟨u', rfl, h⟩ | ⟨h, h'⟩
  · obtain ⟨f', h1, h2⟩ := readFileChunk_full hc.sched.noFail hc.rest hb (by omega) (fuel := fuel)
    exact .inl ⟨u', f', rfl, h, h1, h2.left hc⟩
  · obtain ⟨f', h1, h2, h3⟩ := readFileChunk_calm (fuel := fuel) (n := a.length) hc hb (by omega)
    rw [decide_eq_false (by omega), Nat.min_eq_right (by omega), List.take_of_length_le (by omega)] at h1
    rw [List.drop_of_length_le (by omega)] at h2
    exact .inr ⟨f', h, h', h1, h2, h3⟩

theorem read32_nil {fuel : Nat} {f : FileIO} (old : BitVec 64) (hc : Calm f []) (hf : f.sched.length + 16 < fuel) :
    ∃ f', readFile32 fuel f old = .ok (false, old, f') ∧ Left f f' [] := by
  obtain ⟨f', h1, h2, h3⟩ := readFile32_short old hc (by simp) (by omega) (fuel := fuel)
  exact ⟨f', h1, h2, h3⟩

theorem read16_nil {fuel : Nat} {f : FileIO} (old : BitVec 16) (hc : Calm f []) (hf : f.sched.length + 16 < fuel) :
    ∃ f', readFile16 fuel f old = .ok (false, old, f') ∧ Left f f' [] := by
  obtain ⟨f', h1, h2, h3⟩ := readFile16_short old hc (by simp) (by omega) (fuel := fuel)
  exact ⟨f', h1, h2, h3⟩

theorem readTimestamp_nil {fuel : Nat} {f : FileIO} (a b : BitVec 16) (l : BitVec 64) (hc : Calm f []) (hf : f.sched.length + 16 < fuel) :
    ∃ s v f', readTimestamp fuel f a b l = .ok (s, v, f') ∧ Left f f' [] := by
  unfold readTimestamp
  split
  · exact ⟨_, _, _, rfl, hc, Nat.le_refl _⟩
  · obtain ⟨f', h1, h2, h3⟩ := readFile64_short 0 hc (by simp) (by omega) (fuel := fuel)
    exact ⟨_, _, _, h1, h2, h3⟩

/-- The stamp of a record. -/
theorem stamp_cases (r : Record) : ∃ slot ts, slot < 2 ^ 32 ∧ r.stamp = le 4 slot ++ (le 2 r.major.toNat ++ (le 2 r.minor.toNat ++ ts)) ∧
    ((r.Old ∧ ts = [] ∧ slot = r.timestamp.toNat % 2 ^ 32) ∨ (¬ r.Old ∧ ts = le 8 r.timestamp.toNat)) := by
  unfold Record.stamp
  by_cases h : r.Old
  · rw [if_pos h]
    refine ⟨r.timestamp.toNat % 2 ^ 32, [], by omega, ?_, .inl ⟨h, rfl, rfl⟩⟩
    have h1 : le 4 (r.timestamp.toNat % 2 ^ 32) = le 4 r.timestamp.toNat := by
      unfold le
      apply List.map_congr_left
      intro i hi
      rw [List.mem_range] at hi
      apply BitVec.eq_of_toNat_eq
      rw [BitVec.toNat_ofNat, BitVec.toNat_ofNat]
      rcases (show i = 0 ∨ i = 1 ∨ i = 2 ∨ i = 3 by omega) with rfl | rfl | rfl | rfl <;> omega
    rw [h1, h.1, h.2]; simp
  · rw [if_neg h]
    exact ⟨0, _, by omega, rfl, .inr ⟨h, rfl⟩⟩

/-- The fixed part and the length of the id, as the code reads them. -/
def readHead (fuel : Nat) (f : FileIO) (k : KeyringInfo) : Res (Bool × BitVec 16 × BitVec 16 × BitVec 64 × BitVec 64 × FileIO) := do
  let a ← readFile32 fuel f 0
  let b ← readFile16 fuel a.2.2 k.major
  let c ← readFile16 fuel b.2.2 k.minor
  let d ← readTimestamp fuel c.2.2 b.2.1 c.2.1 a.2.1
  let e ← readFile32 fuel d.2.2 0
  .ok (a.1 && b.1 && c.1 && d.1 && e.1, b.2.1, c.2.1, d.2.1, e.2.1, e.2.2)

/-- The rest of a record, as the code reads it. -/
def readTail (fuel : Nat) (k : KeyringInfo) (major minor : BitVec 16) (ts : BitVec 64) (len : BitVec 64) (f : FileIO) :
    Res (Bool × KeyringInfo × FileIO) := do
    let id ← acquireStringInfo len.toNat
    let g ← readFileChunk fuel f id.datum id.length
    let h ← readFile32 fuel g.2.2 0
    if (g.1 && h.1) = false then .ub
    else do
      let key ← acquireStringInfo h.2.1.toNat
      let l ← readFileChunk fuel h.2.2 key.datum key.length
      let m ← readFile32 fuel l.2.2 0
      if (l.1 && m.1) = false then .ub
      else do
        let nonce ← acquireStringInfo m.2.1.toNat
        let n ← readFileChunk fuel m.2.2 nonce.datum nonce.length
        let o ← compareStringInfo k.id ⟨id.length, g.2.1⟩
        if o = 0 then do
          let key ← cloneStringInfo ⟨key.length, l.2.1⟩
          let nonce ← cloneStringInfo ⟨nonce.length, n.2.1⟩
          .ok (true, ⟨k.id, key, nonce, major, minor, ts⟩, n.2.2)
        else if n.1 = false then .ub
        else .ok (false, ⟨k.id, k.key, k.nonce, major, minor, ts⟩, n.2.2)

theorem exportRecord_eq (fuel : Nat) (f : FileIO) (k : KeyringInfo) : exportRecord fuel f k =
    (readHead fuel f k >>= fun x => if x.1 = false then .ub else readTail fuel k x.2.1 x.2.2.1 x.2.2.2.1 x.2.2.2.2.1 x.2.2.2.2.2) := by
  unfold exportRecord readHead
  cases readFile32 fuel f 0 with
  | ub => rfl
  | fatal => rfl
  | ok a =>
    rw [Res.ok_bind, Res.ok_bind]
    cases readFile16 fuel a.2.2 k.major with
    | ub => rfl
    | fatal => rfl
    | ok b =>
      rw [Res.ok_bind, Res.ok_bind]
      cases readFile16 fuel b.2.2 k.minor with
      | ub => rfl
      | fatal => rfl
      | ok c =>
        rw [Res.ok_bind, Res.ok_bind]
        cases readTimestamp fuel c.2.2 b.2.1 c.2.1 a.2.1 with
        | ub => rfl
        | fatal => rfl
        | ok d =>
          rw [Res.ok_bind, Res.ok_bind]
          cases readFile32 fuel d.2.2 0 with
          | ub => rfl
          | fatal => rfl
          | ok e => rfl

theorem readHead_pre {fuel : Nat} {f : FileIO} {r : Record} {u t : List Byte} {n : Nat} (k : KeyringInfo) (hc : Calm f u) (hn : n < 2 ^ 32)
    (ho : r.Old → r.timestamp.toNat < 2 ^ 32)
    (hu : u <+: r.stamp ++ (le 4 n ++ t)) (hf : f.sched.length + 16 < fuel) :
    (∃ u' f', u = r.stamp ++ (le 4 n ++ u') ∧ u' <+: t ∧
      readHead fuel f k = .ok (true, r.major, r.minor, r.timestamp, BitVec.ofNat 64 n, f') ∧ Left f f' u') ∨
    (u.length < r.stamp.length + 4 ∧ ∃ x, readHead fuel f k = .ok (false, x)) := by
  obtain ⟨slot, ts, hslot, hst, hcase⟩ := stamp_cases r
  rw [hst] at hu ⊢
  simp only [List.append_assoc, List.length_append, le_length] at hu ⊢
  unfold readHead
  rcases read32_pre 0 hc hslot hu hf with ⟨u1, f1, rfl, hu1, e1, l1⟩ | ⟨f1, hs, e1, l1⟩
  · rw [e1, Res.ok_bind]
    simp only []
    rcases read16_pre k.major l1.calm hu1 (by have := l1.sched; omega) (fuel := fuel) with ⟨u2, f2, rfl, hu2, e2, l2⟩ | ⟨f2, hs, e2, l2⟩
    · rw [e2, Res.ok_bind]
      simp only []
      replace l2 := l1.trans l2
      rcases read16_pre k.minor l2.calm hu2 (by have := l2.sched; omega) (fuel := fuel) with ⟨u3, f3, rfl, hu3, e3, l3⟩ | ⟨f3, hs, e3, l3⟩
      · rw [e3, Res.ok_bind]
        simp only []
        replace l3 := l2.trans l3
        have hd : (∃ u4 f4, u3 = ts ++ u4 ∧ u4 <+: le 4 n ++ t ∧
            readTimestamp fuel f3 r.major r.minor (BitVec.ofNat 64 slot) = .ok (true, r.timestamp, f4) ∧ Left f f4 u4) ∨
            (u3.length < ts.length ∧ ∃ v f4, readTimestamp fuel f3 r.major r.minor (BitVec.ofNat 64 slot) = .ok (false, v, f4) ∧ Left f f4 []) := by
          unfold readTimestamp
          rcases hcase with ⟨h1, rfl, h3⟩ | ⟨h1, rfl⟩
          · rw [if_pos (show r.major = 1 ∧ r.minor = 0 from h1)]
            refine .inl ⟨u3, f3, rfl, hu3, ?_, l3⟩
            have h4 := ho h1
            rw [h3, Nat.mod_eq_of_lt h4, BitVec.ofNat_toNat]; simp
          · rw [if_neg (show ¬ (r.major = 1 ∧ r.minor = 0) from h1)]
            rcases read64_pre 0 l3.calm hu3 (by have := l3.sched; omega) (fuel := fuel) with ⟨u4, f4, rfl, hu4, e4, l4⟩ | ⟨f4, hs, e4, l4⟩
            · exact .inl ⟨u4, f4, rfl, hu4, e4, l3.trans l4⟩
            · exact .inr ⟨by rw [le_length]; exact hs, _, _, e4, l3.trans l4⟩
        rcases hd with ⟨u4, f4, rfl, hu4, e4, l4⟩ | ⟨hs, v, f4, e4, l4⟩
        · rw [e4, Res.ok_bind]
          simp only []
          rcases read32_pre 0 l4.calm hn hu4 (by have := l4.sched; omega) (fuel := fuel) with ⟨u5, f5, rfl, hu5, e5, l5⟩ | ⟨f5, hs, e5, l5⟩
          · rw [e5, Res.ok_bind]
            exact .inl ⟨u5, f5, by simp, hu5, rfl, l4.trans l5⟩
          · rw [e5, Res.ok_bind]
            refine .inr ⟨by simp only [List.length_append, le_length]; omega, _, by simp; rfl⟩
        · rw [e4, Res.ok_bind]
          simp only []
          obtain ⟨f5, e5, _⟩ := read32_nil 0 l4.calm (by have := l4.sched; omega) (fuel := fuel)
          rw [e5, Res.ok_bind]
          refine .inr ⟨by simp only [List.length_append, le_length]; omega, _, by simp; rfl⟩
      · replace l3 := l2.trans l3
        rw [e3, Res.ok_bind]
        simp only []
        obtain ⟨s, v, f4, e4, l4⟩ := readTimestamp_nil r.major k.minor (BitVec.ofNat 64 slot) l3.calm (by have := l3.sched; omega) (fuel := fuel)
        replace l4 := l3.trans l4
        rw [e4, Res.ok_bind]
        simp only []
        obtain ⟨f5, e5, _⟩ := read32_nil 0 l4.calm (by have := l4.sched; omega) (fuel := fuel)
        rw [e5, Res.ok_bind]
        refine .inr ⟨by simp only [List.length_append, le_length]; omega, _, by simp; rfl⟩
    · replace l2 := l1.trans l2
      rw [e2, Res.ok_bind]
      simp only []
      obtain ⟨f3, e3, l3⟩ := read16_nil k.minor l2.calm (by have := l2.sched; omega) (fuel := fuel)
      replace l3 := l2.trans l3
      rw [e3, Res.ok_bind]
      simp only []
      obtain ⟨s, v, f4, e4, l4⟩ := readTimestamp_nil k.major k.minor (BitVec.ofNat 64 slot) l3.calm (by have := l3.sched; omega) (fuel := fuel)
      replace l4 := l3.trans l4
      rw [e4, Res.ok_bind]
      simp only []
      obtain ⟨f5, e5, _⟩ := read32_nil 0 l4.calm (by have := l4.sched; omega) (fuel := fuel)
      rw [e5, Res.ok_bind]
      refine .inr ⟨by simp only [List.length_append, le_length]; omega, _, by simp; rfl⟩
  · rw [e1, Res.ok_bind]
    simp only []
    obtain ⟨f2, e2, l2⟩ := read16_nil k.major l1.calm (by have := l1.sched; omega) (fuel := fuel)
    replace l2 := l1.trans l2
    rw [e2, Res.ok_bind]
    simp only []
    obtain ⟨f3, e3, l3⟩ := read16_nil k.minor l2.calm (by have := l2.sched; omega) (fuel := fuel)
    replace l3 := l2.trans l3
    rw [e3, Res.ok_bind]
    simp only []
    obtain ⟨s, v, f4, e4, l4⟩ := readTimestamp_nil k.major k.minor 0 l3.calm (by have := l3.sched; omega) (fuel := fuel)
    replace l4 := l3.trans l4
    rw [e4, Res.ok_bind]
    simp only []
    obtain ⟨f5, e5, _⟩ := read32_nil 0 l4.calm (by have := l4.sched; omega) (fuel := fuel)
    rw [e5, Res.ok_bind]
    refine .inr ⟨by omega, _, by simp; rfl⟩

theorem acquire_lt {n : Nat} (h : n < 2 ^ 32) : acquireStringInfo n = .ok ⟨n, List.replicate (n + 128) 0⟩ := by
  unfold acquireStringInfo
  rw [if_pos (by unfold sizeMax maxCipherBlocksize; omega)]
  rfl

/-- A string read in full. -/
theorem read_wf (s : List Byte) : (⟨s.length, s ++ (List.replicate (s.length + 128) 0).drop s.length⟩ : StringInfo).WF ∧
    (⟨s.length, s ++ (List.replicate (s.length + 128) 0).drop s.length⟩ : StringInfo).bytes = s := by
  refine ⟨?_, ?_⟩
  · unfold StringInfo.WF maxCipherBlocksize; simp
  · unfold StringInfo.bytes; exact List.take_left' rfl

/-- A string of which only `w` could be read. -/
theorem read_wf_short (w : List Byte) (n : Nat) (h : w.length ≤ n) :
    (⟨n, w ++ (List.replicate (n + 128) 0).drop w.length⟩ : StringInfo).WF ∧
    (⟨n, w ++ (List.replicate (n + 128) 0).drop w.length⟩ : StringInfo).bytes = w ++ List.replicate (n - w.length) 0 := by
  refine ⟨?_, ?_⟩
  · unfold StringInfo.WF maxCipherBlocksize; simp; omega
  · unfold StringInfo.bytes
    rw [List.take_append, List.take_of_length_le h, List.drop_replicate, List.take_replicate]
    congr 2; simp only []; omega

theorem clone_ok {s : StringInfo} (h : s.WF) (hl : s.length < 2 ^ 32) :
    ∃ c, cloneStringInfo s = .ok c ∧ c.WF ∧ c.bytes = s.bytes := by
  obtain ⟨c, h1, h2, _, h3, _⟩ := Props.C03_clone s h (by unfold sizeMax maxCipherBlocksize; omega)
  exact ⟨c, h1, h2, h3⟩

theorem compare_eq {a b : StringInfo} (ha : a.WF) (hb : b.WF) : ∃ o, compareStringInfo a b = .ok o ∧ (o = 0 ↔ a.bytes = b.bytes) := by
  obtain ⟨o, h1, _, _, h2⟩ := Props.C02_compare_is_dictionary_order a b ha hb
  exact ⟨o, h1, h2⟩

/-- The object after the record was found, with the nonce read. -/
structure Got (k k' : KeyringInfo) (r : Record) (nonce : List Byte) : Prop where
  id : k'.id = k.id
  keyWF : k'.key.WF
  key : k'.key.bytes = r.key
  nonceWF : k'.nonce.WF
  nonce : k'.nonce.bytes = nonce
  major : k'.major = r.major
  minor : k'.minor = r.minor
  timestamp : k'.timestamp = r.timestamp

/-- The object after another record was read. -/
def passed (k : KeyringInfo) (r : Record) : KeyringInfo := ⟨k.id, k.key, k.nonce, r.major, r.minor, r.timestamp⟩

theorem readTail_pre {fuel : Nat} {f : FileIO} {r : Record} {u t : List Byte} (k : KeyringInfo) (hk : k.id.WF) (hc : Calm f u)
    (hr : r.Fits) (hu : u <+: r.id ++ (counted r.key ++ (counted r.nonce ++ t)))
    (hf : f.sched.length + (r.id.length + r.key.length + r.nonce.length) + 16 < fuel) :
    (∃ u' f' k', u = r.id ++ (counted r.key ++ (counted r.nonce ++ u')) ∧ u' <+: t ∧
      readTail fuel k r.major r.minor r.timestamp (BitVec.ofNat 64 r.id.length) f = .ok (decide (k.id.bytes = r.id), k', f') ∧ Left f f' u' ∧
      (k.id.bytes = r.id → Got k k' r r.nonce) ∧ (k.id.bytes ≠ r.id → k' = passed k r)) ∨
    (∃ w, w <+: r.nonce ∧ w.length < r.nonce.length ∧ u = r.id ++ (counted r.key ++ (le 4 r.nonce.length ++ w)) ∧
      (k.id.bytes = r.id → ∃ k' f', readTail fuel k r.major r.minor r.timestamp (BitVec.ofNat 64 r.id.length) f = .ok (true, k', f') ∧
        Got k k' r (w ++ List.replicate (r.nonce.length - w.length) 0)) ∧
      (k.id.bytes ≠ r.id → readTail fuel k r.major r.minor r.timestamp (BitVec.ofNat 64 r.id.length) f = .ub)) ∨
    (u.length < r.id.length + (4 + r.key.length + 4) ∧
      readTail fuel k r.major r.minor r.timestamp (BitVec.ofNat 64 r.id.length) f = .ub) := by
  unfold readTail
  unfold counted at hu
  simp only [List.append_assoc] at hu
  rw [toNat_ofNat64 hr.id, acquire_lt hr.id, Res.ok_bind]
  simp only []
  rcases readChunk_pre (fuel := fuel) (buf := List.replicate (r.id.length + 128) 0) hc hu (by simp) (by omega) with
    ⟨u1, f1, rfl, hu1, e1, l1⟩ | ⟨f1, hs, _, e1, l1⟩
  · rw [e1, Res.ok_bind]
    simp only []
    rcases read32_pre 0 l1.calm hr.key hu1 (by have := l1.sched; omega) (fuel := fuel) with ⟨u2, f2, rfl, hu2, e2, l2⟩ | ⟨f2, hs, e2, l2⟩
    · replace l2 := l1.trans l2
      rw [e2, Res.ok_bind]
      simp only [Bool.and_self, Bool.true_eq_false, if_false]
      rw [toNat_ofNat64 hr.key, acquire_lt hr.key, Res.ok_bind]
      simp only []
      rcases readChunk_pre (fuel := fuel) (buf := List.replicate (r.key.length + 128) 0) l2.calm hu2 (by simp) (by have := l2.sched; omega) with
        ⟨u3, f3, rfl, hu3, e3, l3⟩ | ⟨f3, hs, _, e3, l3⟩
      · replace l3 := l2.trans l3
        rw [e3, Res.ok_bind]
        simp only []
        rcases read32_pre 0 l3.calm hr.nonce hu3 (by have := l3.sched; omega) (fuel := fuel) with ⟨u4, f4, rfl, hu4, e4, l4⟩ | ⟨f4, hs, e4, l4⟩
        · replace l4 := l3.trans l4
          rw [e4, Res.ok_bind]
          simp only [Bool.and_self, Bool.true_eq_false, if_false]
          rw [toNat_ofNat64 hr.nonce, acquire_lt hr.nonce, Res.ok_bind]
          simp only []
          obtain ⟨hi1, hi2⟩ := read_wf r.id
          obtain ⟨o, ho1, ho2⟩ := compare_eq hk hi1
          rw [hi2] at ho2
          obtain ⟨hk1, hk2⟩ := read_wf r.key
          obtain ⟨ck, ck1, ck2, ck3⟩ := clone_ok hk1 hr.key
          rw [hk2] at ck3
          rcases readChunk_pre (fuel := fuel) (buf := List.replicate (r.nonce.length + 128) 0) l4.calm hu4 (by simp) (by have := l4.sched; omega) with
            ⟨u5, f5, rfl, hu5, e5, l5⟩ | ⟨f5, hs, hp, e5, l5⟩
          · replace l5 := l4.trans l5
            rw [e5, Res.ok_bind, ho1, Res.ok_bind]
            simp only []
            obtain ⟨hn1, hn2⟩ := read_wf r.nonce
            obtain ⟨cn, cn1, cn2, cn3⟩ := clone_ok hn1 hr.nonce
            rw [hn2] at cn3
            by_cases h : k.id.bytes = r.id
            · rw [if_pos (ho2.mpr h), ck1, Res.ok_bind, cn1, Res.ok_bind]
              exact .inl ⟨u5, f5, ⟨k.id, ck, cn, r.major, r.minor, r.timestamp⟩, by unfold counted; simp, hu5, by rw [decide_eq_true h], l5,
                fun _ => ⟨rfl, ck2, ck3, cn2, cn3, rfl, rfl, rfl⟩, fun h' => absurd h h'⟩
            · rw [if_neg (fun h' => h (ho2.mp h'))]
              exact .inl ⟨u5, f5, passed k r, by unfold counted; simp, hu5, by rw [decide_eq_false h]; rfl, l5,
                fun h' => absurd h' h, fun _ => rfl⟩
          · rw [e5, Res.ok_bind, ho1, Res.ok_bind]
            simp only []
            obtain ⟨hn1, hn2⟩ := read_wf_short u4 r.nonce.length (by omega)
            obtain ⟨cn, cn1, cn2, cn3⟩ := clone_ok hn1 hr.nonce
            rw [hn2] at cn3
            refine .inr (.inl ⟨u4, hp, hs, by unfold counted; simp, ?_, ?_⟩)
            · intro h
              rw [if_pos (ho2.mpr h), ck1, Res.ok_bind, cn1, Res.ok_bind]
              exact ⟨⟨k.id, ck, cn, r.major, r.minor, r.timestamp⟩, _, rfl, rfl, ck2, ck3, cn2, cn3, rfl, rfl, rfl⟩
            · intro h
              rw [if_neg (fun h' => h (ho2.mp h'))]
              rfl
        · rw [e4, Res.ok_bind]
          exact .inr (.inr ⟨by simp only [List.length_append, le_length]; omega, by simp⟩)
      · obtain ⟨f4, e4, _⟩ := read32_nil 0 (l2.trans l3).calm (by have := (l2.trans l3).sched; omega) (fuel := fuel)
        rw [e3, Res.ok_bind]
        simp only []
        rw [e4, Res.ok_bind]
        exact .inr (.inr ⟨by simp only [List.length_append, le_length]; omega, by simp⟩)
    · rw [e2, Res.ok_bind]
      exact .inr (.inr ⟨by simp only [List.length_append]; omega, by simp⟩)
  · obtain ⟨f2, e2, _⟩ := read32_nil 0 l1.calm (by have := l1.sched; omega) (fuel := fuel)
    rw [e1, Res.ok_bind]
    simp only []
    rw [e2, Res.ok_bind]
    exact .inr (.inr ⟨by omega, by simp⟩)

/-- A record after its mark, complete or torn. -/
theorem exportRecord_pre {fuel : Nat} {f : FileIO} {r : Record} {u t : List Byte} (k : KeyringInfo) (hk : k.id.WF) (hc : Calm f u)
    (hr : r.Fits) (hu : u <+: r.body ++ t) (hf : f.sched.length + r.body.length + 16 < fuel) :
    (∃ u' f' k', u = r.body ++ u' ∧ u' <+: t ∧ exportRecord fuel f k = .ok (decide (k.id.bytes = r.id), k', f') ∧ Left f f' u' ∧
      (k.id.bytes = r.id → Got k k' r r.nonce) ∧ (k.id.bytes ≠ r.id → k' = passed k r)) ∨
    (∃ w, w <+: r.nonce ∧ w.length < r.nonce.length ∧ u = r.stamp ++ (counted r.id ++ (counted r.key ++ (le 4 r.nonce.length ++ w))) ∧
      (k.id.bytes = r.id → ∃ k' f', exportRecord fuel f k = .ok (true, k', f') ∧
        Got k k' r (w ++ List.replicate (r.nonce.length - w.length) 0)) ∧
      (k.id.bytes ≠ r.id → exportRecord fuel f k = .ub)) ∨
    (u.length < r.stamp.length + (4 + r.id.length + (4 + r.key.length + 4)) ∧ exportRecord fuel f k = .ub) := by
  have hbody : r.body.length = r.stamp.length + (4 + r.id.length + (4 + r.key.length + (4 + r.nonce.length))) := by
    unfold Record.body counted; simp [le_length]; omega
  rw [exportRecord_eq]
  have hu' : u <+: r.stamp ++ (le 4 r.id.length ++ (r.id ++ (counted r.key ++ (counted r.nonce ++ t)))) := by
    unfold Record.body at hu
    unfold counted at hu ⊢
    simpa only [List.append_assoc] using hu
  rcases readHead_pre k hc hr.id hr.old hu' (by omega) (fuel := fuel) with ⟨u1, f1, rfl, hu1, e1, l1⟩ | ⟨hs, x, e1⟩
  · rw [e1, Res.ok_bind]
    simp only [Bool.true_eq_false, if_false]
    rcases readTail_pre k hk l1.calm hr hu1 (by have := l1.sched; omega) (fuel := fuel) with
      ⟨u2, f2, k', rfl, hu2, e2, l2, g1, g2⟩ | ⟨w, hw, hl, rfl, g1, g2⟩ | ⟨hs, e2⟩
    · refine .inl ⟨u2, f2, k', ?_, hu2, e2, l1.trans l2, g1, g2⟩
      unfold Record.body counted; simp
    · refine .inr (.inl ⟨w, hw, hl, ?_, g1, g2⟩)
      unfold counted; simp
    · refine .inr (.inr ⟨?_, e2⟩)
      simp only [List.length_append, le_length]; omega
  · rw [e1, Res.ok_bind]
    exact .inr (.inr ⟨by omega, rfl⟩)

/-! ### The whole file -/

theorem Calm.of_prefix_self {u : List Byte} : u <+: u ++ [] := by simp

/-- The records are passed one by one. -/
def passedAll (k : KeyringInfo) : List Record → KeyringInfo
  | [] => k
  | r :: rs => passedAll (passed k r) rs

theorem passedAll_id (k : KeyringInfo) (rs : List Record) : (passedAll k rs).id = k.id := by
  induction rs generalizing k with
  | nil => rfl
  | cons r rs ih => exact ih (passed k r)

theorem mark_eq : (0xabacadab : Nat) < 2 ^ 32 := by decide

theorem encodeAll_cons (r : Record) (rs : List Record) : encodeAll (r :: rs) = r.encode ++ encodeAll rs := rfl

theorem encodeAll_append (a b : List Record) : encodeAll (a ++ b) = encodeAll a ++ encodeAll b := by
  simp [encodeAll, List.flatMap_append]

theorem encode_length (r : Record) : r.encode.length = 4 + r.body.length := by
  unfold Record.encode mark; rw [List.length_append, le_length]

/-- A mark. -/
theorem exportLoop_mark {fuel turns : Nat} {f : FileIO} {u : List Byte} (k : KeyringInfo) (hc : Calm f (mark ++ u))
    (hf : f.sched.length + 16 < fuel) :
    ∃ f', Left f f' u ∧ exportLoop fuel (turns + 1) f k =
      (exportRecord fuel f' k >>= fun r => if r.1 then .ok (true, r.2.1) else exportLoop fuel turns r.2.2 r.2.1) := by
  rcases read32_pre 0 hc mark_eq (List.prefix_refl _) hf with ⟨u', f', h1, _, h2, h3⟩ | ⟨f', h1, _⟩
  · have : u = u' := List.append_cancel_left h1
    subst this
    refine ⟨f', h3, ?_⟩
    rw [exportLoop, h2, Res.ok_bind]
    simp only [Bool.true_eq_false, if_false]
    rw [if_neg (by simp [wizardSignature])]
  · unfold mark at h1
    rw [List.length_append, le_length] at h1; omega

theorem exportLoop_end {fuel turns : Nat} {f : FileIO} {u : List Byte} (k : KeyringInfo) (hc : Calm f u) (hu : u.length < 4)
    (hf : f.sched.length + 16 < fuel) : exportLoop fuel (turns + 1) f k = .ok (false, k) := by
  obtain ⟨f', h1, _⟩ := readFile32_short 0 hc hu (by omega) (fuel := fuel)
  rw [exportLoop, h1]
  rfl

theorem exportLoop_skip {fuel turns : Nat} {u : List Byte} : ∀ (rs : List Record) (f : FileIO) (k : KeyringInfo), k.id.WF →
    (∀ r ∈ rs, r.Fits ∧ r.id ≠ k.id.bytes) → Calm f (encodeAll rs ++ u) → f.sched.length + (encodeAll rs).length + 16 < fuel →
    ∃ f', Left f f' u ∧ exportLoop fuel (rs.length + turns) f k = exportLoop fuel turns f' (passedAll k rs) := by
  intro rs
  induction rs with
  | nil => intro f k _ _ hc _; exact ⟨f, ⟨hc, Nat.le_refl _⟩, by simp [passedAll]⟩
  | cons r rs ih =>
    intro f k hk hr hc hf
    rw [encodeAll_cons, List.length_append, encode_length] at hf
    rw [encodeAll_cons, Record.encode, List.append_assoc, List.append_assoc] at hc
    obtain ⟨f1, l1, e1⟩ := exportLoop_mark (fuel := fuel) (turns := rs.length + turns) k hc (by omega)
    rw [show (r :: rs).length + turns = (rs.length + turns) + 1 by simp; omega, e1]
    obtain ⟨hr1, hr2⟩ := hr r (List.mem_cons_self ..)
    rcases exportRecord_pre (fuel := fuel) (t := encodeAll rs ++ u) k hk l1.calm hr1 (List.prefix_refl _) (by have := l1.sched; omega) with
      ⟨u', f', k', h1, _, h2, h3, _, h4⟩ | ⟨w, hw, hl, h1, _⟩ | ⟨h1, _⟩
    · have : encodeAll rs ++ u = u' := List.append_cancel_left h1
      subst this
      have hne : k.id.bytes ≠ r.id := fun h => hr2 h.symm
      rw [h2, Res.ok_bind, decide_eq_false hne]
      simp only [Bool.false_eq_true, if_false]
      rw [h4 hne]
      have hl := (l1.trans h3).sched
      obtain ⟨f'', l2, e2⟩ := ih f' (passed k r) hk (fun x hx => hr x (List.mem_cons_of_mem _ hx)) h3.calm (by omega)
      exact ⟨f'', (l1.trans h3).trans l2, e2⟩
    · have := congrArg List.length h1
      unfold Record.body counted at this
      simp only [List.length_append, le_length] at this
      omega
    · unfold Record.body counted at h1
      simp only [List.length_append, le_length] at h1
      omega

theorem exportLoop_hit {fuel turns : Nat} {f : FileIO} {u : List Byte} {r : Record} (k : KeyringInfo) (hk : k.id.WF)
    (hr : r.Fits) (hid : k.id.bytes = r.id) (hc : Calm f (r.encode ++ u)) (hf : f.sched.length + r.encode.length + 16 < fuel) :
    ∃ k', exportLoop fuel (turns + 1) f k = .ok (true, k') ∧ Got k k' r r.nonce := by
  rw [encode_length] at hf
  rw [Record.encode, List.append_assoc] at hc
  obtain ⟨f1, l1, e1⟩ := exportLoop_mark (fuel := fuel) (turns := turns) k hc (by omega)
  rcases exportRecord_pre (fuel := fuel) (t := u) k hk l1.calm hr (List.prefix_refl _) (by have := l1.sched; omega) with
    ⟨u', f', k', h1, _, h2, h3, h4, _⟩ | ⟨w, hw, hl, h1, _⟩ | ⟨h1, _⟩
  · refine ⟨k', ?_, h4 hid⟩
    rw [e1, h2, Res.ok_bind, decide_eq_true hid]
    rfl
  · have := congrArg List.length h1
    unfold Record.body counted at this
    simp only [List.length_append, le_length] at this
    omega
  · unfold Record.body counted at h1
    simp only [List.length_append, le_length] at h1
    omega

/-- A torn record, the mark of which is complete. -/
theorem exportLoop_torn {fuel turns : Nat} {f : FileIO} {u : List Byte} {r : Record} (k : KeyringInfo) (hk : k.id.WF)
    (hr : r.Fits) (hc : Calm f u) (hu : u <+: r.encode) (h4 : 4 ≤ u.length) (hlt : u.length < r.encode.length)
    (hf : f.sched.length + r.encode.length + 16 < fuel) :
    (k.id.bytes ≠ r.id ∧ exportLoop fuel (turns + 1) f k = .ub) ∨
    (k.id.bytes = r.id ∧ u.length + r.nonce.length < r.encode.length ∧ exportLoop fuel (turns + 1) f k = .ub) ∨
    (∃ w k', k.id.bytes = r.id ∧ u.length + r.nonce.length = r.encode.length + w.length ∧ w <+: r.nonce ∧ w.length < r.nonce.length ∧
      exportLoop fuel (turns + 1) f k = .ok (true, k') ∧ Got k k' r (w ++ List.replicate (r.nonce.length - w.length) 0)) := by
  have hel : r.encode.length = 4 + (r.stamp.length + (4 + r.id.length + (4 + r.key.length + (4 + r.nonce.length)))) := by
    rw [encode_length]; unfold Record.body counted; simp only [List.length_append, le_length]
  rcases prefix_cases (a := mark) (t := r.body) hu with ⟨v, rfl, hv⟩ | ⟨h, _⟩
  · obtain ⟨f1, l1, e1⟩ := exportLoop_mark (fuel := fuel) (turns := turns) k hc (by omega)
    have hvl : (mark ++ v).length = 4 + v.length := by unfold mark; rw [List.length_append, le_length]
    rw [hvl] at hlt h4
    rw [hvl]
    have hbl := encode_length r
    rcases exportRecord_pre (t := []) k hk l1.calm hr (by simpa using hv) (by have := l1.sched; omega) (fuel := fuel) with
      ⟨u', f', k', h1, _⟩ | ⟨w, hw, hl, h1, h2, h3⟩ | ⟨h1, h2⟩
    · have := congrArg List.length h1
      rw [List.length_append] at this; omega
    · by_cases hid : k.id.bytes = r.id
      · obtain ⟨k', f', h5, h6⟩ := h2 hid
        refine .inr (.inr ⟨w, k', hid, ?_, hw, hl, ?_, h6⟩)
        · rw [h1, hel]; unfold counted; simp only [List.length_append, le_length]; omega
        · rw [e1, h5]; rfl
      · refine .inl ⟨hid, ?_⟩
        rw [e1, h3 hid]; rfl
    · by_cases hid : k.id.bytes = r.id
      · refine .inr (.inl ⟨hid, by omega, ?_⟩)
        rw [e1, h2]; rfl
      · refine .inl ⟨hid, ?_⟩
        rw [e1, h2]; rfl
  · unfold mark at h
    rw [le_length] at h; omega

/-! ### The header -/

theorem expectBytes_ok {fuel : Nat} {f : FileIO} {s : StringInfo} {u : List Byte} (hs : s.WF) (hl : s.length < 2 ^ 32)
    (hc : Calm f (s.bytes ++ u)) (hf : f.sched.length + s.length + 16 < fuel) :
    ∃ f', expectBytes fuel f s = .ok f' ∧ Left f f' u := by
  obtain ⟨c, c1, c2, c3, c4, _⟩ := Props.C03_clone s hs (by unfold sizeMax maxCipherBlocksize; omega)
  have hbl := StringInfo.bytes_length hs
  unfold expectBytes
  rw [c1, Res.ok_bind, c3, ← hbl]
  have hcd : s.bytes.length + 128 ≤ c.datum.length := by
    have : c.length + 128 ≤ c.datum.length := c2
    omega
  rcases readChunk_pre (fuel := fuel) (buf := c.datum) hc (List.prefix_refl _) (by omega) (by omega) with
    ⟨u', f', h1, _, h2, h3⟩ | ⟨f', h1, _⟩
  · have : u = u' := List.append_cancel_left h1
    subst this
    rw [h2, Res.ok_bind]
    simp only []
    have hwf : (⟨s.bytes.length, s.bytes ++ c.datum.drop s.bytes.length⟩ : StringInfo).WF := by
      unfold StringInfo.WF maxCipherBlocksize; simp; omega
    obtain ⟨o, o1, o2⟩ := compare_eq hwf hs
    rw [o1, Res.ok_bind, if_neg]
    · exact ⟨f', rfl, h3⟩
    · have : o = 0 := o2.mpr (by show List.take _ _ = _; exact List.take_left' rfl)
      simp [this]
  · rw [List.length_append] at h1; omega

theorem expectBytes_short {fuel : Nat} {f : FileIO} {s : StringInfo} {u : List Byte} (hs : s.WF) (hl : s.length < 2 ^ 32)
    (hc : Calm f u) (hu : u.length < s.length) (hf : f.sched.length + s.length + 16 < fuel) : expectBytes fuel f s = .ub := by
  obtain ⟨c, c1, c2, c3, c4, _⟩ := Props.C03_clone s hs (by unfold sizeMax maxCipherBlocksize; omega)
  unfold expectBytes
  rw [c1, Res.ok_bind, c3]
  have hcd : s.length + 128 ≤ c.datum.length := by
    have : c.length + 128 ≤ c.datum.length := c2
    omega
  obtain ⟨f', h1, _⟩ := readFileChunk_calm (fuel := fuel) (n := s.length) (buf := c.datum) hc (by omega) (by omega)
  rw [h1, Res.ok_bind]
  simp only []
  have hwf : (⟨s.length, u.take s.length ++ c.datum.drop (min s.length u.length)⟩ : StringInfo).WF := by
    unfold StringInfo.WF maxCipherBlocksize; simp; omega
  obtain ⟨o, o1, _⟩ := compare_eq hwf hs
  rw [o1, Res.ok_bind, if_pos]
  exact .inl (by simp; omega)

/-- The two digests of the header. -/
structure Header (m t : StringInfo) : Prop where
  mWF : m.WF
  tWF : t.WF
  mPos : 0 < m.length
  mLt : m.length < 2 ^ 32
  tLt : t.length < 2 ^ 32

/-- No interruptions. -/
structure Quiet (e : IOEnv) : Prop where
  eintr : e.eintr = false
  sched : OnlyShort e.sched

theorem export_header {fuel turns : Nat} {m t : StringInfo} {u : List Byte} {e : IOEnv} (k : KeyringInfo) (hh : Header m t) (he : Quiet e)
    (hf : e.sched.length + (m.length + t.length) + 16 < fuel) :
    ∃ f, Calm f u ∧ f.sched.length ≤ e.sched.length ∧
      exportKeyring fuel turns m t (some (m.bytes ++ t.bytes ++ u)) e k = exportLoop fuel turns f k := by
  have hc : Calm (openFile (m.bytes ++ t.bytes ++ u) e) (m.bytes ++ (t.bytes ++ u)) := ⟨he.sched, he.eintr, by
    unfold FileIO.rest openFile; simp⟩
  have hs : (openFile (m.bytes ++ t.bytes ++ u) e).sched.length = e.sched.length := rfl
  obtain ⟨f1, e1, l1⟩ := expectBytes_ok hh.mWF hh.mLt hc (by omega) (fuel := fuel)
  obtain ⟨f2, e2, l2⟩ := expectBytes_ok hh.tWF hh.tLt l1.calm (by have := l1.sched; omega) (fuel := fuel)
  refine ⟨f2, l2.calm, (l1.trans l2).sched, ?_⟩
  unfold exportKeyring
  simp only []
  rw [e1, Res.ok_bind, e2, Res.ok_bind]

end Wizard

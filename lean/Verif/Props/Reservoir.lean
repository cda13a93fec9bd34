import Verif.Lemmas.Reservoir
import Verif.Props.Keyring
/-! C114-C117: the entropy reservoir on disk. -/
namespace Wizard.Props
open Spec.Hash Spec.Reservoir Spec.CRC

/-- Turns that suffice for a read. -/
def reservoirFuel (m t : StringInfo) (e : IOEnv) : Nat := e.sched.length + (m.length + t.length) + 2 ^ 32 + 17

theorem get_header {fuel : Nat} {m t : StringInfo} {u : List Byte} {e : IOEnv} (junk : BitVec 64) (table : List (BitVec 64))
    (r : ReservoirInfo) (hh : Header m t) (he : Quiet e) (hf : reservoirFuel m t e ≤ fuel) :
    ∃ f, Calm f u ∧ f.sched.length ≤ e.sched.length ∧
      getReservoir fuel junk table m t (some (m.bytes ++ (t.bytes ++ u))) e r = readBody fuel junk table f r := by
  unfold reservoirFuel at hf
  have hc : Calm (openFile (m.bytes ++ (t.bytes ++ u)) e) (m.bytes ++ (t.bytes ++ u)) := ⟨he.sched, he.eintr, by
    unfold FileIO.rest openFile; simp⟩
  have hs : (openFile (m.bytes ++ (t.bytes ++ u)) e).sched.length = e.sched.length := rfl
  obtain ⟨f1, e1, l1⟩ := expectBytes_ok hh.mWF hh.mLt hc (by omega) (fuel := fuel)
  obtain ⟨f2, e2, l2⟩ := expectBytes_ok hh.tWF hh.tLt l1.calm (by have := l1.sched; omega) (fuel := fuel)
  refine ⟨f2, l2.calm, (l1.trans l2).sched, ?_⟩
  rw [getReservoir_eq, e1, Res.ok_bind, e2, Res.ok_bind]

/-- Reading a file whose part before the entropy is known. -/
theorem get_body {fuel n : Nat} {m t : StringInfo} {w : List Byte} {e : IOEnv} (junk : BitVec 64) (table : List (BitVec 64))
    (r : ReservoirInfo) (a b : BitVec 16) (ts : BitVec 64) (hn : n < 2 ^ 32) (hh : Header m t) (he : Quiet e)
    (hf : reservoirFuel m t e ≤ fuel) :
    (Accepted n w ∧ ∃ s, getReservoir fuel junk table m t (some (m.bytes ++ (t.bytes ++ (prelude a b ts n ++ w)))) e r =
      .ok (some s, stamped r a b ts) ∧ s.WF ∧ s.bytes = w.take n) ∨
    (¬ Accepted n w ∧ getReservoir fuel junk table m t (some (m.bytes ++ (t.bytes ++ (prelude a b ts n ++ w)))) e r =
      .ok (none, stamped r a b ts)) := by
  obtain ⟨f, h1, h2, h3⟩ := get_header (u := prelude a b ts n ++ w) junk table r hh he hf
  rw [h3]
  unfold reservoirFuel at hf
  exact readBody_ok junk table r a b ts h1 hn (by omega)

theorem accepted_sealed {s w : List Byte} : Accepted s.length (s ++ (le 8 (checksum s).toNat ++ w)) := by
  refine ⟨by rw [List.length_append, List.length_append, le_length]; omega, ?_⟩
  rw [List.drop_left' rfl, List.take_left' rfl, List.take_left' (le_length ..)]

/-! ### C114: what was saved is restored -/

/-- **C114** Every reservoir file, of protocol 1.0 or later, whatever follows it in the file, yields its entropy and its time stamp. -/
theorem C114_read (fuel : Nat) (junk : BitVec 64) (table : List (BitVec 64)) (m t : StringInfo) (hh : Header m t) (c : Contents)
    (hc : c.entropy.length < 2 ^ 32) (tail : List Byte) (e : IOEnv) (he : Quiet e) (r : ReservoirInfo) (hf : reservoirFuel m t e ≤ fuel) :
    ∃ s r', getReservoir fuel junk table m t (some (m.bytes ++ t.bytes ++ c.encode ++ tail)) e r = .ok (some s, r') ∧
      s.WF ∧ s.bytes = c.entropy ∧ r'.major = c.major ∧ r'.minor = c.minor ∧
      r'.timestamp = if c.Old then r.timestamp else c.timestamp := by
  have hfile : m.bytes ++ t.bytes ++ c.encode ++ tail = m.bytes ++ (t.bytes ++ (prelude c.major c.minor c.timestamp c.entropy.length ++
      (c.entropy ++ (le 8 (checksum c.entropy).toNat ++ tail)))) := by
    unfold Contents.encode prelude sealed Contents.Old
    simp only [List.append_assoc]
  rw [hfile]
  rcases get_body junk table r c.major c.minor c.timestamp hc hh he hf (w := c.entropy ++ (le 8 (checksum c.entropy).toNat ++ tail)) with
    ⟨_, s, h1, h2, h3⟩ | ⟨h1, _⟩
  · refine ⟨s, _, h1, h2, ?_, rfl, rfl, rfl⟩
    rw [h3, List.take_left' rfl]
  · exact absurd accepted_sealed h1

/-- **C114** For every digest, every earlier content of the file, longer or shorter, and every pattern of short and interrupted
writes: after a save the file is the new reservoir followed by what was behind it, and reading it yields the saved bytes and the
time stamp.  Missing: objects of protocol 1.0 (see `C114_protocol_violated`) and failed writes (see `C114_status_violated`). -/
theorem C114_restored_partial (fuel : Nat) (junk : BitVec 64) (table table' : List (BitVec 64)) (m t : StringInfo) (hh : Header m t)
    (file : Option (List Byte)) (r r' : ReservoirInfo) (hr : ¬ (r.major = 1 ∧ r.minor = 0)) (digest : StringInfo) (hd : digest.WF)
    (hl : digest.length < 2 ^ 32) (e e' : IOEnv) (he : NoFail e.sched) (he' : Quiet e')
    (hf : e.sched.length + (m.length + t.length) + digest.length + 24 < fuel) (hf' : reservoirFuel m t e' ≤ fuel) :
    ∃ c s, saveEntropy fuel table m t file e r digest = .ok (true, some c) ∧
      getReservoir fuel junk table' m t (some c) e' r' = .ok (some s, r) ∧ s.WF ∧ s.bytes = digest.bytes ∧
      (⟨r.major, r.minor, r.timestamp, digest.bytes⟩ : Contents).encode <+: c.drop (m.length + t.length) := by
  have lm := StringInfo.bytes_length hh.mWF
  have lt := StringInfo.bytes_length hh.tWF
  have ld := StringInfo.bytes_length hd
  have hlen : (saved m t r digest).length = m.length + t.length + 24 + digest.length := by
    unfold saved sealed; simp only [List.length_append, le_length]; omega
  obtain ⟨j, c, h1, h2, _, h3⟩ := save_sane (table := table) (r := r) (fuel := fuel) (e := e) file hh hd hl he.sane (by omega)
  rw [h3 he, List.take_length] at h2
  have ho : ¬ (⟨r.major, r.minor, r.timestamp, digest.bytes⟩ : Contents).Old := hr
  have henc : saved m t r digest = m.bytes ++ t.bytes ++ (⟨r.major, r.minor, r.timestamp, digest.bytes⟩ : Contents).encode := by
    unfold saved Contents.encode
    rw [if_neg ho]
    simp only [List.append_assoc]
  rw [henc] at h2
  obtain ⟨s, q, g1, g2, g3, g4, g5, g6⟩ := C114_read fuel junk table' m t hh ⟨r.major, r.minor, r.timestamp, digest.bytes⟩
    (by show digest.bytes.length < _; omega) ((file.getD []).drop (saved m t r digest).length) e' he' r' hf'
  rw [henc] at g1
  refine ⟨c, s, h1, ?_, g2, g3, ?_⟩
  · rw [h2, g1]
    rw [if_neg ho] at g6
    cases q; cases r
    simp only [] at g4 g5 g6
    rw [g4, g5, g6]
  · rw [h2, List.append_assoc, List.drop_left' (by rw [List.length_append, lm, lt])]
    exact List.prefix_append ..

/-- **C114** is false for protocol 1.0: an object that has read a reservoir of protocol 1.0 keeps this number and saves it, but with
a time stamp, which protocol 1.0 does not have.  The next read takes the low half of the time stamp for the length of the entropy and
finds nothing, for every time stamp whose low half is larger than the file (random.c:717-726 and 1004-1006). -/
theorem C114_protocol_violated (fuel : Nat) (junk : BitVec 64) (table table' : List (BitVec 64)) (m t : StringInfo) (hh : Header m t)
    (file : Option (List Byte)) (r r' : ReservoirInfo) (hr : r.major = 1 ∧ r.minor = 0) (digest : StringInfo) (hd : digest.WF)
    (hl : digest.length < 2 ^ 32) (hfile : (file.getD []).length ≤ m.length + t.length + 24 + digest.length)
    (hts : digest.length + 8 < r.timestamp.toNat % 2 ^ 32) (e e' : IOEnv) (he : NoFail e.sched) (he' : Quiet e')
    (hf : e.sched.length + (m.length + t.length) + digest.length + 24 < fuel) (hf' : reservoirFuel m t e' ≤ fuel) :
    ∃ c q, saveEntropy fuel table m t file e r digest = .ok (true, some c) ∧
      getReservoir fuel junk table' m t (some c) e' r' = .ok (none, q) := by
  have lm := StringInfo.bytes_length hh.mWF
  have lt := StringInfo.bytes_length hh.tWF
  have ld := StringInfo.bytes_length hd
  have hlen : (saved m t r digest).length = m.length + t.length + 24 + digest.length := by
    unfold saved sealed; simp only [List.length_append, le_length]; omega
  obtain ⟨j, c, h1, h2, _, h3⟩ := save_sane (table := table) (r := r) (fuel := fuel) (e := e) file hh hd hl he.sane (by omega)
  rw [h3 he, List.take_length, List.drop_of_length_le (by omega), List.append_nil] at h2
  have hsplit : le 8 r.timestamp.toNat = le 4 (r.timestamp.toNat % 2 ^ 32) ++ (le 8 r.timestamp.toNat).drop 4 := by
    have h4 : (le 8 r.timestamp.toNat).take 4 = le 4 (r.timestamp.toNat % 2 ^ 32) := by
      simp only [le_succ, List.take_succ_cons, List.take_zero, List.cons.injEq]
      refine ⟨?_, ?_, ?_, ?_, rfl⟩ <;> (apply BitVec.eq_of_toNat_eq; simp only [BitVec.toNat_ofNat]; omega)
    rw [← h4, List.take_append_drop]
  have hc : c = m.bytes ++ (t.bytes ++ (prelude 1 0 0 (r.timestamp.toNat % 2 ^ 32) ++ ((le 8 r.timestamp.toNat).drop 4 ++ sealed digest.bytes))) := by
    rw [h2]
    unfold saved prelude
    rw [hr.1, hr.2, if_pos ⟨rfl, rfl⟩]
    conv => lhs; rw [hsplit]
    simp only [List.append_assoc, List.nil_append]
  refine ⟨c, stamped r' 1 0 0, h1, ?_⟩
  rw [hc]
  rcases get_body junk table' r' 1 0 0 (Nat.mod_lt _ (by decide)) hh he' hf' (n := r.timestamp.toNat % 2 ^ 32)
    (w := (le 8 r.timestamp.toNat).drop 4 ++ sealed digest.bytes) with ⟨h, _⟩ | ⟨_, h⟩
  · exfalso
    have := h.1
    unfold sealed at this
    simp only [List.length_append, List.length_drop, le_length] at this
    omega
  · exact h

/-- **C114** is false if the disk is full: when every write fails, the file is left as it was and yet the save reports success
(random.c:1013-1019), so AcquireRandomInfo() does not notice. -/
theorem C114_status_violated : ∃ (fuel : Nat) (e : IOEnv) (m t : StringInfo) (r : ReservoirInfo) (digest : StringInfo), Header m t ∧
    digest.WF ∧ saveEntropy fuel [] m t none e r digest = .ok (true, some []) :=
  ⟨30, ⟨false, List.replicate 8 .fail⟩, strOf [0x7f, 0x53], strOf [1, 2, 3], ⟨1, 1, 1700000000⟩, strOf [5, 6, 7],
    header_example, strOf_wf _, by decide +kernel⟩

/-! ### C115: a damaged reservoir -/

/-- **C115** Every file that begins with the header and holds all that stands before the entropy, however damaged the rest: the read
returns, and if it yields entropy, the file holds it between its length and its checksum.  Missing: files that are shorter or begin
differently (see `C115_header_violated`). -/
theorem C115_damaged_partial (fuel : Nat) (junk : BitVec 64) (table : List (BitVec 64)) (m t : StringInfo) (hh : Header m t)
    (u : List Byte) (hu : 16 ≤ u.length ∨ (le 2 1 ++ le 2 0 <+: u ∧ 8 ≤ u.length)) (e : IOEnv) (he : Quiet e) (r : ReservoirInfo)
    (hf : reservoirFuel m t e ≤ fuel) :
    ∃ x r', getReservoir fuel junk table m t (some (m.bytes ++ t.bytes ++ u)) e r = .ok (x, r') ∧
      ∀ s, x = some s → s.WF ∧ ∃ p q, u = p ++ sealed s.bytes ++ q := by
  have hcm : Complete u := by
    unfold Complete
    split
    · omega
    · rename_i h
      rcases hu with h' | h'
      · exact h'
      · exact absurd h'.1 h
  obtain ⟨a, b, ts, n, w, hn, rfl⟩ := complete_split hcm
  rw [List.append_assoc]
  rcases get_body junk table r a b ts hn hh he hf (w := w) with ⟨h1, s, h2, h3, h4⟩ | ⟨_, h⟩
  · refine ⟨_, _, h2, ?_⟩
    rintro s' h
    injection h with h
    subst h
    refine ⟨h3, le 2 a.toNat ++ (le 2 b.toNat ++ (if a = 1 ∧ b = 0 then [] else le 8 ts.toNat)), w.drop (n + 8), ?_⟩
    have hs : s.bytes.length = n := by rw [h4, List.length_take]; have := h1.1; omega
    unfold sealed prelude
    rw [hs, h4, ← h1.2]
    have hw : w = w.take n ++ ((w.drop n).take 8 ++ w.drop (n + 8)) := by
      rw [← List.drop_drop, List.take_append_drop, List.take_append_drop]
    conv => lhs; rw [hw]
    simp only [List.append_assoc]
  · exact ⟨_, _, h, fun s h => by cases h⟩

/-- **C115** is false: for every file that does not begin with the two digests of the header, or ends before the length of the
entropy, the read does not return: it reports the damage with the path of the file, after it has destroyed the file object, and an
assertion fails (random.c:690-695, 705-712, 728-733).  AcquireRandomInfo() reads the reservoir, so no generator can be made until
the file is removed by hand. -/
theorem C115_header_violated (fuel : Nat) (junk : BitVec 64) (table : List (BitVec 64)) (m t : StringInfo) (hh : Header m t)
    (content : List Byte) (hc : ∀ u, content = m.bytes ++ t.bytes ++ u → ¬ (16 ≤ u.length ∨ (le 2 1 ++ le 2 0 <+: u ∧ 8 ≤ u.length)))
    (e : IOEnv) (he : Quiet e) (r : ReservoirInfo) (hf : reservoirFuel m t e ≤ fuel) :
    getReservoir fuel junk table m t (some content) e r = .ub := by
  by_cases h1 : m.bytes <+: content
  · obtain ⟨v, rfl⟩ := h1
    by_cases h2 : t.bytes <+: v
    · obtain ⟨u, rfl⟩ := h2
      obtain ⟨f, g1, g2, g3⟩ := get_header (u := u) junk table r hh he hf
      rw [g3]
      unfold reservoirFuel at hf
      refine readBody_short junk table r g1 (fun h => hc u (by rw [List.append_assoc]) ?_) (by omega)
      unfold Complete at h
      split at h
      · rename_i h'
        exact .inr ⟨h', h⟩
      · exact .inl h
    · have hcal : Calm (openFile (m.bytes ++ v) e) (m.bytes ++ v) := ⟨he.sched, he.eintr, by
        unfold FileIO.rest openFile; simp⟩
      have hs : (openFile (m.bytes ++ v) e).sched.length = e.sched.length := rfl
      unfold reservoirFuel at hf
      obtain ⟨f1, e1, l1⟩ := expectBytes_ok hh.mWF hh.mLt hcal (by omega) (fuel := fuel)
      rw [getReservoir_eq, e1, Res.ok_bind, expectBytes_bad hh.tWF hh.tLt l1.calm h2 (by have := l1.sched; omega)]
      rfl
  · have hcal : Calm (openFile content e) content := ⟨he.sched, he.eintr, by
      unfold FileIO.rest openFile; simp⟩
    have hs : (openFile content e).sched.length = e.sched.length := rfl
    unfold reservoirFuel at hf
    rw [getReservoir_eq, expectBytes_bad hh.mWF hh.mLt hcal h1 (by omega)]
    rfl

/-! ### C116: the process dies while it saves -/

/-- **C116** If there is a reservoir, of any content behind its header, then whenever the process dies during a save, after any short
and interrupted writes, the next read returns, and any entropy it yields stands in the file between its length and its checksum.
Missing: the first save (see `C116_first_violated`). -/
theorem C116_crash_partial (fuel : Nat) (junk : BitVec 64) (table table' : List (BitVec 64)) (m t : StringInfo) (hh : Header m t)
    (u : List Byte) (hu : 16 ≤ u.length) (r r' : ReservoirInfo) (digest : StringInfo) (hd : digest.WF) (hl : digest.length < 2 ^ 32)
    (e e' : IOEnv) (he : Sane e.sched) (he' : Quiet e')
    (hf : e.sched.length + (m.length + t.length) + digest.length + 24 < fuel) (hf' : reservoirFuel m t e' ≤ fuel) :
    ∃ c x q, saveEntropy fuel table m t (some (m.bytes ++ t.bytes ++ u)) e r digest = .ok (true, some c) ∧
      getReservoir fuel junk table' m t (some c) e' r' = .ok (x, q) ∧
      ∀ s, x = some s → s.WF ∧ ∃ p q, c = p ++ sealed s.bytes ++ q := by
  have lm := StringInfo.bytes_length hh.mWF
  have lt := StringInfo.bytes_length hh.tWF
  have ld := StringInfo.bytes_length hd
  have hlen : (saved m t r digest).length = m.length + t.length + 24 + digest.length := by
    unfold saved sealed; simp only [List.length_append, le_length]; omega
  obtain ⟨j, c, h1, h2, h3, _⟩ := save_sane (table := table) (r := r) (fuel := fuel) (e := e) (some (m.bytes ++ t.bytes ++ u)) hh hd hl he (by omega)
  simp only [Option.getD_some] at h2
  -- the header is still there
  have hpre : ∃ u', c = m.bytes ++ t.bytes ++ u' ∧ 16 ≤ u'.length := by
    obtain ⟨v, hv⟩ : ∃ v, saved m t r digest = m.bytes ++ t.bytes ++ v := ⟨_, by unfold saved; rw [← List.append_assoc]⟩
    have hmt : (m.bytes ++ t.bytes).length = m.length + t.length := by rw [List.length_append, lm, lt]
    rw [h2, hv]
    by_cases hj : j ≤ (m.bytes ++ t.bytes).length
    · refine ⟨u, ?_, hu⟩
      rw [List.take_append_of_le_length hj, List.drop_append_of_le_length hj, ← List.append_assoc, List.take_append_drop]
    · refine ⟨v.take (j - (m.bytes ++ t.bytes).length) ++ u.drop (j - (m.bytes ++ t.bytes).length), ?_, ?_⟩
      · rw [List.take_append, List.take_of_length_le (by omega), List.drop_append, List.drop_of_length_le (by omega)]
        simp only [List.append_assoc, List.nil_append]
      · have hvl : (saved m t r digest).length = (m.bytes ++ t.bytes).length + v.length := by rw [hv, List.length_append]
        simp only [List.length_append, List.length_take, List.length_drop] at hmt hvl ⊢
        omega
  obtain ⟨u', hc, hu'⟩ := hpre
  obtain ⟨x, q, g1, g2⟩ := C115_damaged_partial fuel junk table' m t hh u' (.inl hu') e' he' r' hf'
  refine ⟨c, x, q, h1, by rw [hc]; exact g1, fun s hs => ?_⟩
  obtain ⟨w, p, q, hp⟩ := g2 s hs
  exact ⟨w, m.bytes ++ t.bytes ++ p, q, by rw [hc, hp]; simp only [List.append_assoc]⟩

theorem saved_take {m t digest : StringInfo} {r : ReservoirInfo} (hh : Header m t) {j : Nat} {u : List Byte}
    (h : (saved m t r digest).take j = m.bytes ++ t.bytes ++ u) :
    u = (le 2 r.major.toNat ++ (le 2 r.minor.toNat ++ (le 8 r.timestamp.toNat ++ sealed digest.bytes))).take (j - (m.length + t.length)) := by
  have lm := StringInfo.bytes_length hh.mWF
  have lt := StringInfo.bytes_length hh.tWF
  have hmt : (m.bytes ++ t.bytes).length = m.length + t.length := by rw [List.length_append, lm, lt]
  unfold saved at h
  rw [← List.append_assoc, List.take_append, hmt] at h
  by_cases hj : m.length + t.length ≤ j
  · rw [List.take_of_length_le (by omega)] at h
    exact (List.append_cancel_left h).symm
  · have := congrArg List.length h
    rw [List.length_append, List.length_append, hmt, List.length_take, List.length_take, hmt] at this
    have hu : u.length = 0 := by
      have : j - (m.length + t.length) = 0 := by omega
      omega
    rw [List.eq_nil_of_length_eq_zero hu, show j - (m.length + t.length) = 0 by omega, List.take_zero]

/-- **C116** is false for the first save: if the process dies after any number of bytes before the end of the length of the entropy,
every later read of the reservoir fails an assertion (random.c:692-694, 709-711, 730-732). -/
theorem C116_first_violated (fuel : Nat) (junk : BitVec 64) (table table' : List (BitVec 64)) (m t : StringInfo) (hh : Header m t)
    (r r' : ReservoirInfo) (hr : ¬ (r.major = 1 ∧ r.minor = 0)) (digest : StringInfo) (hd : digest.WF) (hl : digest.length < 2 ^ 32)
    (j : Nat) (hj : j < m.length + t.length + 16) (e' : IOEnv) (he' : Quiet e')
    (hf : 2 * (m.length + t.length + digest.length) + 50 < fuel) (hf' : reservoirFuel m t e' ≤ fuel) :
    ∃ c, saveEntropy fuel table m t none ⟨false, ticks j⟩ r digest = .ok (true, some c) ∧ c.length = j ∧
      getReservoir fuel junk table' m t (some c) e' r' = .ub := by
  have lm := StringInfo.bytes_length hh.mWF
  have lt := StringInfo.bytes_length hh.tWF
  have ld := StringInfo.bytes_length hd
  have hlen : (saved m t r digest).length = m.length + t.length + 24 + digest.length := by
    unfold saved sealed; simp only [List.length_append, le_length]; omega
  have h := save_crash (table := table) (r := r) (fuel := fuel) (j := j) none hh hd hl (by omega) (by omega)
  simp only [Option.getD_none, List.drop_nil, List.append_nil] at h
  refine ⟨_, h, by rw [List.length_take]; omega, ?_⟩
  apply C115_header_violated fuel junk table' m t hh _ _ e' he' r' hf'
  intro u hu
  rw [saved_take hh hu]
  rintro (h' | ⟨⟨w, hw⟩, h'⟩)
  · rw [List.length_take] at h'; omega
  · rw [List.length_take] at h'
    have h2 : 4 ≤ j - (m.length + t.length) := by omega
    have h3 := congrArg (List.take 4) hw
    rw [List.take_left' (by rw [List.length_append, le_length, le_length]), List.take_take, Nat.min_eq_left h2, ← List.append_assoc,
      List.take_left' (by rw [List.length_append, le_length, le_length])] at h3
    have h4 := List.append_inj h3 (by rw [le_length, le_length])
    exact hr ⟨(le2_inj (a := 1) h4.1).symm, (le2_inj (a := 0) h4.2).symm⟩

/-- **C116** If the process dies later in the first save, the next read finds no entropy and returns. -/
theorem C116_first_late (fuel : Nat) (junk : BitVec 64) (table table' : List (BitVec 64)) (m t : StringInfo) (hh : Header m t)
    (r r' : ReservoirInfo) (hr : ¬ (r.major = 1 ∧ r.minor = 0)) (digest : StringInfo) (hd : digest.WF) (hl : digest.length < 2 ^ 32)
    (j : Nat) (hj : m.length + t.length + 16 ≤ j) (hj' : j < m.length + t.length + 24 + digest.length) (e' : IOEnv) (he' : Quiet e')
    (hf : 2 * (m.length + t.length + digest.length) + 50 < fuel) (hf' : reservoirFuel m t e' ≤ fuel) :
    ∃ c q, saveEntropy fuel table m t none ⟨false, ticks j⟩ r digest = .ok (true, some c) ∧ c.length = j ∧
      getReservoir fuel junk table' m t (some c) e' r' = .ok (none, q) := by
  have lm := StringInfo.bytes_length hh.mWF
  have lt := StringInfo.bytes_length hh.tWF
  have ld := StringInfo.bytes_length hd
  have hlen : (saved m t r digest).length = m.length + t.length + 24 + digest.length := by
    unfold saved sealed; simp only [List.length_append, le_length]; omega
  have h := save_crash (table := table) (r := r) (fuel := fuel) (j := j) none hh hd hl (by omega) (by omega)
  simp only [Option.getD_none, List.drop_nil, List.append_nil] at h
  have hsplit : saved m t r digest = (m.bytes ++ (t.bytes ++ prelude r.major r.minor r.timestamp digest.length)) ++
      (digest.bytes ++ le 8 (checksum digest.bytes).toNat) := by
    unfold saved prelude sealed
    rw [if_neg hr, ld]
    simp only [List.append_assoc]
  have hpl : (m.bytes ++ (t.bytes ++ prelude r.major r.minor r.timestamp digest.length)).length = m.length + t.length + 16 := by
    unfold prelude
    rw [if_neg hr]
    simp only [List.length_append, le_length]
    omega
  have hc : (saved m t r digest).take j = m.bytes ++ (t.bytes ++ (prelude r.major r.minor r.timestamp digest.length ++
      (digest.bytes ++ le 8 (checksum digest.bytes).toNat).take (j - (m.length + t.length + 16)))) := by
    rw [hsplit, List.take_append, List.take_of_length_le (by omega), hpl]
    simp only [List.append_assoc]
  refine ⟨_, stamped r' r.major r.minor r.timestamp, h, by rw [List.length_take]; omega, ?_⟩
  rw [hc]
  rcases get_body junk table' r' r.major r.minor r.timestamp hl hh he' hf'
    (w := (digest.bytes ++ le 8 (checksum digest.bytes).toNat).take (j - (m.length + t.length + 16))) with ⟨h, _⟩ | ⟨_, h⟩
  · exfalso
    have := h.1
    rw [List.length_take, List.length_append, le_length] at this
    omega
  · exact h

/-! ### C117: damage to the entropy -/

/-- **C117** For every reservoir and every damage of the stored entropy that changes bits within 64 consecutive ones only, the read
finds no entropy. -/
theorem C117_burst (fuel : Nat) (junk : BitVec 64) (table : List (BitVec 64)) (m t : StringInfo) (hh : Header m t) (c : Contents)
    (hc : c.entropy.length < 2 ^ 32) (damaged tail : List Byte) (hb : Burst 64 damaged c.entropy) (hne : damaged ≠ c.entropy)
    (pre post : List Byte) (hfile : c.encode = pre ++ (c.entropy ++ post)) (hpost : post.length = 8) (e : IOEnv) (he : Quiet e)
    (r : ReservoirInfo) (hf : reservoirFuel m t e ≤ fuel) :
    ∃ r', getReservoir fuel junk table m t (some (m.bytes ++ t.bytes ++ (pre ++ (damaged ++ post)) ++ tail)) e r = .ok (none, r') := by
  have hd := hb.1
  have henc : c.encode = prelude c.major c.minor c.timestamp c.entropy.length ++ (c.entropy ++ le 8 (checksum c.entropy).toNat) := by
    unfold Contents.encode prelude sealed Contents.Old
    simp only [List.append_assoc]
  rw [henc] at hfile
  have h1 := List.append_inj' hfile (by rw [List.length_append, List.length_append, le_length, hpost])
  obtain ⟨rfl, h2⟩ := h1
  have := List.append_cancel_left h2
  subst this
  rcases get_body junk table r c.major c.minor c.timestamp hc hh he hf (w := damaged ++ (le 8 (checksum c.entropy).toNat ++ tail)) with
    ⟨h, _⟩ | ⟨_, h⟩
  · exfalso
    have := h.2
    rw [← hd, List.drop_left' rfl, List.take_left' rfl, List.take_left' (le_length ..)] at this
    exact checksum_burst hb hne (le8_inj this).symm
  · refine ⟨stamped r c.major c.minor c.timestamp, ?_⟩
    rw [← h]
    congr 2
    simp only [List.append_assoc]

/-! ### The conditions can be met -/

/-- A first save, a save over a longer file, and the reads after them. -/
example : ∃ c s, saveEntropy 10000000000 [] (strOf [0x7f, 0x53]) (strOf [1, 2, 3]) (some (List.replicate 90 0x41)) ⟨false, [.short 3, .intr, .short 0]⟩
    ⟨1, 1, 1700000000⟩ (strOf [5, 6, 7]) = .ok (true, some c) ∧
    getReservoir 10000000000 9 [] (strOf [0x7f, 0x53]) (strOf [1, 2, 3]) (some c) ⟨false, [.short 1, .short 3]⟩ ⟨1, 1, 0⟩ =
      .ok (some s, ⟨1, 1, 1700000000⟩) ∧ s.bytes = [5, 6, 7] := by
  obtain ⟨c, s, h1, h2, _, h3, _⟩ := C114_restored_partial 10000000000 9 [] [] (strOf [0x7f, 0x53]) (strOf [1, 2, 3]) header_example
    (some (List.replicate 90 0x41)) ⟨1, 1, 1700000000⟩ ⟨1, 1, 0⟩ (by decide) (strOf [5, 6, 7]) (strOf_wf _) (by decide)
    ⟨false, [.short 3, .intr, .short 0]⟩ ⟨false, [.short 1, .short 3]⟩ (by intro x hx; simp at hx; rcases hx with rfl | rfl | rfl <;> simp)
    quiet_example (by decide) (by decide)
  exact ⟨c, s, h1, h2, h3⟩

/-- An old reservoir with a time stamp of 2023, and the damaged files of `C115` and `C117`. -/
example : ∃ c q, saveEntropy 10000000000 [] (strOf [0x7f, 0x53]) (strOf [1, 2, 3]) none ⟨false, []⟩ ⟨1, 0, 1700000000⟩ (strOf [5, 6, 7]) =
    .ok (true, some c) ∧
    getReservoir 10000000000 9 [] (strOf [0x7f, 0x53]) (strOf [1, 2, 3]) (some c) ⟨false, [.short 1, .short 3]⟩ ⟨1, 1, 0⟩ = .ok (none, q) :=
  C114_protocol_violated 10000000000 9 [] [] _ _ header_example none _ _ (by decide) _ (strOf_wf _) (by decide) (by decide) (by decide)
    _ _ (by intro x hx; cases hx) quiet_example (by decide) (by decide)

example : getReservoir 10000000000 9 [] (strOf [0x7f, 0x53]) (strOf [1, 2, 3]) (some [0x7f, 0x53, 1, 2, 4, 0, 0, 0, 0, 0, 0, 0])
    ⟨false, [.short 1, .short 3]⟩ ⟨1, 1, 0⟩ = .ub :=
  C115_header_violated 10000000000 9 [] _ _ header_example _ (by
    intro u hu
    have h : (4 : Byte) = 3 := by
      have := congrArg (fun l => l.getD 4 0) hu
      simpa [strOf, StringInfo.bytes] using this
    exact absurd h (by decide)) _ quiet_example _ (by decide)

example : ∃ c, saveEntropy 10000000000 [] (strOf [0x7f, 0x53]) (strOf [1, 2, 3]) none ⟨false, ticks 7⟩ ⟨1, 1, 1700000000⟩ (strOf [5, 6, 7]) =
    .ok (true, some c) ∧ c.length = 7 ∧
    getReservoir 10000000000 9 [] (strOf [0x7f, 0x53]) (strOf [1, 2, 3]) (some c) ⟨false, [.short 1, .short 3]⟩ ⟨1, 1, 0⟩ = .ub :=
  C116_first_violated 10000000000 9 [] [] _ _ header_example _ _ (by decide) _ (strOf_wf _) (by decide) 7 (by decide) _ quiet_example
    (by decide) (by decide)

example : ∃ r', getReservoir 10000000000 9 [] (strOf [0x7f, 0x53]) (strOf [1, 2, 3]) (some ((strOf [0x7f, 0x53]).bytes ++ (strOf [1, 2, 3]).bytes ++
      ((le 2 1 ++ (le 2 1 ++ (le 8 1700000000 ++ le 4 3))) ++ ([5, 0x16, 7] ++ le 8 (checksum [5, 6, 7]).toNat)) ++ [1]))
    ⟨false, [.short 1, .short 3]⟩ ⟨1, 1, 0⟩ = .ok (none, r') :=
  C117_burst 10000000000 9 [] _ _ header_example ⟨1, 1, 1700000000, [5, 6, 7]⟩ (by decide) [5, 0x16, 7] [1]
    ⟨rfl, 0, fun i hi => ⟨by omega, by
      rcases Nat.lt_or_ge i 24 with h | h
      · omega
      · exfalso
        apply hi
        rw [List.getElem?_eq_none (by rw [crcBits_length]; simpa using h), List.getElem?_eq_none (by rw [crcBits_length]; simpa using h)]⟩⟩
    (by decide) _ _ (by
      unfold Contents.encode sealed
      rw [if_neg (by decide)]
      simp only [List.append_assoc]
      rfl) (le_length ..) _ quiet_example _ (by decide)

end Wizard.Props

import Verif.Lemmas.Keyring
/-! Writing a key ring record, whole or cut off by the death of the process. -/
namespace Wizard
open Spec.Hash Spec.Keyring

/-- Nothing fails before the process dies. -/
def Sane : List IOEvent → Prop
  | [] => True
  | .short _ :: s => Sane s
  | .intr :: s => Sane s
  | .fail :: _ => False
  | .crash _ :: _ => True

theorem NoFail.sane : ∀ {s : List IOEvent}, NoFail s → Sane s
  | [], _ => trivial
  | e :: s, h => by
    have ht : NoFail s := fun x hx => h x (List.mem_cons_of_mem _ hx)
    rcases h e (List.mem_cons_self ..) with rfl | ⟨k, rfl⟩
    · exact NoFail.sane (s := s) ht
    · exact NoFail.sane (s := s) ht

theorem put_dead {f : FileIO} (h : f.dead = true) (b : List Byte) : f.put b = f := by
  unfold FileIO.put; rw [h]; rfl

/-- A dead process writes nothing. -/
theorem writeLoop_dead : ∀ (fuel : Nat) (f : FileIO) (data : List Byte) (i : Nat), f.dead = true →
    f.sched.length + (data.length - i) < fuel →
    ∃ st f', writeLoop fuel f data i = .ok (st, f') ∧ f'.content = f.content ∧ f'.dead = true ∧ f'.sched.length ≤ f.sched.length := by
  intro fuel
  induction fuel with
  | zero => intro f data i _ h; omega
  | succ fuel ih =>
    intro f data i hd hf
    rw [writeLoop]
    by_cases hlt : i < data.length
    · rw [if_pos hlt]
      unfold sysWrite
      cases hs : f.sched with
      | nil =>
        simp only [put_dead hd]
        rw [if_neg (by rw [List.length_drop]; omega)]
        obtain ⟨st, f', h1, h2, h3, h4⟩ := ih f data (i + (data.drop i).length) hd (by rw [hs] at hf ⊢; simp at hf ⊢; omega)
        exact ⟨st, f', h1, h2, h3, by rw [hs] at h4; exact h4⟩
      | cons e s =>
        rw [hs] at hf
        simp only [List.length_cons] at hf ⊢
        cases e with
        | short k =>
          simp only [put_dead hd]
          rw [if_neg (by rw [List.length_drop]; omega)]
          obtain ⟨st, f', h1, h2, h3, h4⟩ := ih { f with sched := s } data (i + min (data.drop i).length (k + 1)) hd
            (by simp only []; omega)
          exact ⟨st, f', h1, h2, h3, by simp only [] at h4; omega⟩
        | intr =>
          simp only [if_true]
          obtain ⟨st, f', h1, h2, h3, h4⟩ := ih { f with eintr := true, sched := s } data i hd (by simp only []; omega)
          exact ⟨st, f', h1, h2, h3, by simp only [] at h4; omega⟩
        | fail =>
          simp only [if_true, Bool.false_eq_true, if_false]
          exact ⟨_, _, rfl, rfl, hd, by simp⟩
        | crash k =>
          simp only [if_true, Bool.false_eq_true, if_false, put_dead hd]
          exact ⟨_, _, rfl, rfl, rfl, by simp⟩
    · rw [if_neg hlt]
      exact ⟨_, _, rfl, rfl, hd, Nat.le_refl _⟩

/-- A chunk is written, or the process dies with a part of it written. -/
theorem writeLoop_sane : ∀ (fuel : Nat) (f : FileIO) (data : List Byte) (i : Nat), Sane f.sched → f.dead = false →
    f.pos ≤ f.content.length → i ≤ data.length → f.sched.length + (data.length - i) < fuel →
    ∃ st f', writeLoop fuel f data i = .ok (st, f') ∧ f'.sched.length ≤ f.sched.length ∧
      ((f'.content = (f.put (data.drop i)).content ∧ f'.pos = f.pos + (data.length - i) ∧ Sane f'.sched ∧ f'.dead = false) ∨
       (f'.dead = true ∧ ∃ j, j ≤ data.length - i ∧ f'.content = (f.put ((data.drop i).take j)).content)) := by
  intro fuel
  induction fuel with
  | zero => intro f data i _ _ _ _ h; omega
  | succ fuel ih =>
    intro f data i hnf hd hp hi hfu
    rw [writeLoop]
    by_cases hlt : i < data.length
    · rw [if_pos hlt]
      have hdl : (data.drop i).length = data.length - i := List.length_drop ..
      -- a transfer of `m` bytes
      have move : ∀ (m : Nat) (s : List IOEvent), 0 < m → m ≤ data.length - i → Sane s → s.length ≤ f.sched.length →
          ∃ st f', writeLoop fuel { f.put ((data.drop i).take m) with sched := s } data (i + m) = .ok (st, f') ∧
            f'.sched.length ≤ f.sched.length ∧
            ((f'.content = (f.put (data.drop i)).content ∧ f'.pos = f.pos + (data.length - i) ∧ Sane f'.sched ∧ f'.dead = false) ∨
             (f'.dead = true ∧ ∃ j, j ≤ data.length - i ∧ f'.content = (f.put ((data.drop i).take j)).content)) := by
        intro m s hm hm' hs hsl
        have hd' : (f.put ((data.drop i).take m)).dead = false := by
          unfold FileIO.put; rw [hd]; rfl
        have hp' : (f.put ((data.drop i).take m)).pos = f.pos + m := by
          unfold FileIO.put; rw [hd]; simp; omega
        obtain ⟨st, f', a1, a2, a3⟩ := ih { f.put ((data.drop i).take m) with sched := s } data (i + m) hs hd' (put_pos hp _)
          (by omega) (by simp only []; omega)
        refine ⟨st, f', a1, by simp only [] at a2; omega, ?_⟩
        rcases a3 with ⟨b1, b2, b3, b4⟩ | ⟨b1, j, b2, b3⟩
        · refine .inl ⟨?_, ?_, b3, b4⟩
          · rw [b1, put_put hp hd, ← List.drop_drop, List.take_append_drop]
          · rw [b2]; simp only [hp']; omega
        · refine .inr ⟨b1, m + j, by omega, ?_⟩
          rw [b3, put_put hp hd, ← List.drop_drop, List.take_add]
      unfold sysWrite
      cases hs : f.sched with
      | nil =>
        simp only []
        rw [if_neg (by omega), hdl]
        have := move (data.length - i) f.sched (by omega) (by omega) (by rw [hs]; trivial) (Nat.le_refl _)
        rw [List.take_of_length_le (by omega)] at this
        have he : ({ f.put (data.drop i) with sched := f.sched } : FileIO) = f.put (data.drop i) := by
          unfold FileIO.put; split <;> rfl
        rw [he, hs] at this
        exact this
      | cons e s =>
        rw [hs] at hnf
        cases e with
        | short k =>
          simp only []
          rw [if_neg (by omega)]
          have := move (min (data.drop i).length (k + 1)) s (by omega) (by omega) hnf (by rw [hs]; simp)
          have ht : (data.drop i).take (min (data.drop i).length (k + 1)) = (data.drop i).take (k + 1) := by
            rcases Nat.le_total (data.drop i).length (k + 1) with h | h
            · rw [Nat.min_eq_left h, List.take_of_length_le h, List.take_length]
            · rw [Nat.min_eq_right h]
          rw [ht, hs] at this
          exact this
        | intr =>
          simp only [if_true]
          obtain ⟨st, f', a1, a2, a3⟩ := ih { f with eintr := true, sched := s } data i hnf hd hp hi
            (by simp only []; rw [hs] at hfu; simp at hfu; omega)
          refine ⟨st, f', a1, by simp only [] at a2; simp; omega, ?_⟩
          have hput : ∀ b, (FileIO.put { f with eintr := true, sched := s } b).content = (f.put b).content := by
            intro b; unfold FileIO.put; simp only [hd]; rfl
          simp only [hput] at a3
          exact a3
        | fail => exact hnf.elim
        | crash k =>
          simp only [if_true, Bool.false_eq_true, if_false]
          refine ⟨_, _, rfl, by simp, .inr ⟨rfl, min k (data.length - i), by omega, ?_⟩⟩
          rw [← hdl, Nat.min_comm]
          simp only []
          congr 2
          rcases Nat.le_total (data.drop i).length k with h | h
          · rw [Nat.min_eq_left h, List.take_of_length_le h, List.take_length]
          · rw [Nat.min_eq_right h]
    · rw [if_neg hlt]
      have : i = data.length := by omega
      subst this
      refine ⟨_, f, rfl, Nat.le_refl _, .inl ⟨?_, by simp, hnf, hd⟩⟩
      unfold FileIO.put
      rw [hd]; simp

/-- Nothing kills the process. -/
theorem noFail_alive : ∀ (fuel : Nat) (f : FileIO) (data : List Byte) (i : Nat) (st : Bool) (f' : FileIO), NoFail f.sched → f.dead = false →
    writeLoop fuel f data i = .ok (st, f') → f'.dead = false ∧ NoFail f'.sched := by
  intro fuel
  induction fuel with
  | zero => intro f data i st f' _ _ h; simp [writeLoop] at h
  | succ fuel ih =>
    intro f data i st f' hn hd h
    rw [writeLoop] at h
    by_cases hlt : i < data.length
    · rw [if_pos hlt] at h
      rcases sysWrite_spec (f := f) (b := data.drop i) hn (by rw [List.length_drop]; omega) with ⟨s, h1, h2⟩ | ⟨m, s, m1, m2, m3, m4, h2⟩
      · rw [h2] at h
        simp only [if_true] at h
        exact ih { f with eintr := true, sched := s } data i st f' (fun x hx => hn x (by rw [h1]; exact List.mem_cons_of_mem _ hx)) hd h
      · rw [h2] at h
        simp only [] at h
        rw [if_neg (by omega)] at h
        refine ih { f.put ((data.drop i).take m) with sched := s } data _ st f' m3 ?_ h
        unfold FileIO.put; simp only [hd]; rfl
    · rw [if_neg hlt] at h
      cases h
      exact ⟨hd, hn⟩

/-- `d` was appended to `base`, or a part of it before the process died; under `A` it does not die. -/
structure Prog (A : Prop) (base : List Byte) (N : Nat) (f : FileIO) (d : List Byte) : Prop where
  calm : A → f.dead = false ∧ NoFail f.sched
  sched : f.sched.length ≤ N
  progress : (f.content = base ++ d ∧ f.pos = f.content.length ∧ Sane f.sched ∧ f.dead = false) ∨
    (f.dead = true ∧ ∃ j, j ≤ d.length ∧ f.content = base ++ d.take j)

theorem put_end {f : FileIO} (hd : f.dead = false) (hp : f.pos = f.content.length) (b : List Byte) : (f.put b).content = f.content ++ b := by
  unfold FileIO.put
  rw [hd]
  simp only [Bool.false_eq_true, if_false]
  rw [hp, List.take_length, List.drop_of_length_le (by omega), List.append_nil]

theorem Prog.write {A : Prop} {base d : List Byte} {N fuel : Nat} {f : FileIO} (h : Prog A base N f d) (c : List Byte) (hf : N + c.length < fuel) :
    ∃ st f', writeFileChunk fuel f c = .ok (st, f') ∧ Prog A base N f' (d ++ c) := by
  obtain ⟨ha, hs, hp⟩ := h
  unfold writeFileChunk
  rcases hp with ⟨h1, h2, h3, h4⟩ | ⟨h1, j, h2, h3⟩
  · obtain ⟨st, f', a1, a2, a3⟩ := writeLoop_sane fuel f c 0 h3 h4 (by omega) (by omega) (by omega)
    refine ⟨st, f', a1, fun hA => noFail_alive fuel f c 0 st f' (ha hA).2 (ha hA).1 a1, by omega, ?_⟩
    rw [List.drop_zero] at a3
    rcases a3 with ⟨b1, b2, b3, b4⟩ | ⟨b1, j, b2, b3⟩
    · rw [put_end h4 h2, h1, List.append_assoc] at b1
      refine .inl ⟨b1, ?_, b3, b4⟩
      rw [b2, h2, h1, b1]; simp; omega
    · rw [put_end h4 h2, h1, List.append_assoc] at b3
      refine .inr ⟨b1, d.length + j, by simp at b2 ⊢; omega, ?_⟩
      rw [b3, List.take_length_add_append]
  · obtain ⟨st, f', a1, a2, a3, a4⟩ := writeLoop_dead fuel f c 0 h1 (by omega)
    refine ⟨st, f', a1, fun hA => noFail_alive fuel f c 0 st f' (ha hA).2 (ha hA).1 a1, by omega, .inr ⟨a3, j, by simp; omega, ?_⟩⟩
    rw [a2, h3, List.take_append_of_le_length h2]

/-- Writing bytes over themselves. -/
structure Same (A : Prop) (content : List Byte) (N : Nat) (f : FileIO) (p : Nat) : Prop where
  calm : A → f.dead = false ∧ NoFail f.sched
  sched : f.sched.length ≤ N
  content : f.content = content
  progress : (f.pos = p ∧ Sane f.sched ∧ f.dead = false) ∨ f.dead = true

theorem put_same {f : FileIO} {a : List Byte} (hp : f.pos ≤ f.content.length) (ha : a <+: f.content.drop f.pos) :
    (f.put a).content = f.content := by
  unfold FileIO.put
  split
  · rfl
  · obtain ⟨t, ht⟩ := ha
    simp only []
    have h1 : f.content.drop (f.pos + a.length) = t := by
      rw [← List.drop_drop, ← ht, List.drop_left' rfl]
    rw [h1, List.append_assoc, ht, List.take_append_drop]

theorem Same.write {A : Prop} {content : List Byte} {N fuel p : Nat} {f : FileIO} (h : Same A content N f p) (c : List Byte) (hp : p ≤ content.length)
    (hc : c <+: content.drop p) (hf : N + c.length < fuel) :
    ∃ st f', writeFileChunk fuel f c = .ok (st, f') ∧ Same A content N f' (p + c.length) := by
  obtain ⟨ha, hs, hcon, hpr⟩ := h
  unfold writeFileChunk
  rcases hpr with ⟨h1, h2, h3⟩ | h1
  · obtain ⟨st, f', a1, a2, a3⟩ := writeLoop_sane fuel f c 0 h2 h3 (by rw [hcon]; omega) (by omega) (by omega)
    refine ⟨st, f', a1, ?_⟩
    rw [List.drop_zero] at a3
    rcases a3 with ⟨b1, b2, b3, b4⟩ | ⟨b1, j, b2, b3⟩
    · rw [put_same (by rw [hcon]; omega) (by rw [hcon, h1]; exact hc)] at b1
      exact ⟨fun hA => noFail_alive fuel f c 0 st f' (ha hA).2 (ha hA).1 a1, by omega, b1.trans hcon, .inl ⟨by omega, b3, b4⟩⟩
    · rw [put_same (by rw [hcon]; omega) (by rw [hcon, h1]; exact (List.take_prefix ..).trans hc)] at b3
      exact ⟨fun hA => noFail_alive fuel f c 0 st f' (ha hA).2 (ha hA).1 a1, by omega, b3.trans hcon, .inr b1⟩
  · obtain ⟨st, f', a1, a2, a3, a4⟩ := writeLoop_dead fuel f c 0 h1 (by omega)
    exact ⟨st, f', a1, fun hA => noFail_alive fuel f c 0 st f' (ha hA).2 (ha hA).1 a1, by omega, a2.trans hcon, .inr a3⟩

/-! ### The record -/

/-- The record of an object. -/
def recordOf (k : KeyringInfo) : Record := ⟨k.id.bytes, k.key.bytes, k.nonce.bytes, k.major, k.minor, k.timestamp⟩

/-- What `ImportKeyringKey` writes: a time stamp of 64 bits whatever the protocol. -/
def written (k : KeyringInfo) : List Byte :=
  mark ++ (le 4 0 ++ (le 2 k.major.toNat ++ (le 2 k.minor.toNat ++ le 8 k.timestamp.toNat))) ++
    (counted k.id.bytes ++ (counted k.key.bytes ++ counted k.nonce.bytes))

theorem written_eq {k : KeyringInfo} (h : ¬ (recordOf k).Old) : written k = (recordOf k).encode := by
  unfold written Record.encode Record.body Record.stamp
  rw [if_neg h, List.append_assoc]
  rfl

/-- The strings of an object are well formed and short enough for the file. -/
structure KeyOK (k : KeyringInfo) : Prop where
  id : k.id.WF
  key : k.key.WF
  nonce : k.nonce.WF
  idLt : k.id.length < 2 ^ 32
  keyLt : k.key.length < 2 ^ 32
  nonceLt : k.nonce.length < 2 ^ 32

theorem rdN_bytes {s : StringInfo} (h : s.WF) : rdN s.datum 0 s.length = .ok s.bytes := by
  rw [rdN_ok (by have : s.length + 128 ≤ s.datum.length := h; omega)]
  rfl

theorem writeRecord (P : FileIO → List Byte → Prop) (a b : Bool) {k : KeyringInfo} {fuel : Nat} {f : FileIO} {d0 : List Byte}
    (hk : KeyOK k) (h : P f d0)
    (hP : ∀ f d c, P f d → c.length ≤ (written k).length → ∃ st f', writeFileChunk fuel f c = .ok (st, f') ∧ P f' (d ++ c)) :
    ∃ st f', (do
      let c ← writeFile32 fuel f wizardSignature
      let d ← writeFile32 fuel c.2 0
      let e ← writeFile16 fuel d.2 k.major
      let g ← writeFile16 fuel e.2 k.minor
      let h ← writeFile64 fuel g.2 k.timestamp
      let i ← writeFile32 fuel h.2 (BitVec.ofNat 64 k.id.length)
      let id ← rdN k.id.datum 0 k.id.length
      let j ← writeFileChunk fuel i.2 id
      let l ← writeFile32 fuel j.2 (BitVec.ofNat 64 k.key.length)
      let key ← rdN k.key.datum 0 k.key.length
      let n ← writeFileChunk fuel l.2 key
      let o ← writeFile32 fuel n.2 (BitVec.ofNat 64 k.nonce.length)
      let nonce ← rdN k.nonce.datum 0 k.nonce.length
      let p ← writeFileChunk fuel o.2 nonce
      Res.ok (a && b && c.1 && d.1 && e.1 && g.1 && h.1 && i.1 && j.1 && l.1 && n.1 && o.1 && p.1, p.2)) = .ok (st, f') ∧
      P f' (d0 ++ written k) := by
  have li := StringInfo.bytes_length hk.id
  have lk := StringInfo.bytes_length hk.key
  have ln := StringInfo.bytes_length hk.nonce
  have hlen : (written k).length = 32 + k.id.length + k.key.length + k.nonce.length := by
    unfold written mark counted; simp only [List.length_append, le_length]; omega
  rw [hlen] at hP
  simp only [writeFile32_eq, writeFile16_eq, writeFile64_eq, rdN_bytes hk.id, rdN_bytes hk.key, rdN_bytes hk.nonce,
    toNat_ofNat64 hk.idLt, toNat_ofNat64 hk.keyLt, toNat_ofNat64 hk.nonceLt]
  obtain ⟨s1, f1, e1, h⟩ := hP _ _ (le 4 wizardSignature.toNat) h (by rw [le_length]; omega)
  rw [e1, Res.ok_bind]
  obtain ⟨s2, f2, e2, h⟩ := hP _ _ (le 4 (0 : BitVec 64).toNat) h (by rw [le_length]; omega)
  simp only []
  rw [e2, Res.ok_bind]
  obtain ⟨s3, f3, e3, h⟩ := hP _ _ (le 2 k.major.toNat) h (by rw [le_length]; omega)
  simp only []
  rw [e3, Res.ok_bind]
  obtain ⟨s4, f4, e4, h⟩ := hP _ _ (le 2 k.minor.toNat) h (by rw [le_length]; omega)
  simp only []
  rw [e4, Res.ok_bind]
  obtain ⟨s5, f5, e5, h⟩ := hP _ _ (le 8 k.timestamp.toNat) h (by rw [le_length]; omega)
  simp only []
  rw [e5, Res.ok_bind]
  obtain ⟨s6, f6, e6, h⟩ := hP _ _ (le 4 k.id.length) h (by rw [le_length]; omega)
  simp only []
  rw [e6, Res.ok_bind, Res.ok_bind]
  obtain ⟨s7, f7, e7, h⟩ := hP _ _ k.id.bytes h (by omega)
  simp only []
  rw [e7, Res.ok_bind]
  obtain ⟨s8, f8, e8, h⟩ := hP _ _ (le 4 k.key.length) h (by rw [le_length]; omega)
  simp only []
  rw [e8, Res.ok_bind, Res.ok_bind]
  obtain ⟨s9, f9, e9, h⟩ := hP _ _ k.key.bytes h (by omega)
  simp only []
  rw [e9, Res.ok_bind]
  obtain ⟨s10, f10, e10, h⟩ := hP _ _ (le 4 k.nonce.length) h (by rw [le_length]; omega)
  simp only []
  rw [e10, Res.ok_bind, Res.ok_bind]
  obtain ⟨s11, f11, e11, h⟩ := hP _ _ k.nonce.bytes h (by omega)
  simp only []
  rw [e11, Res.ok_bind]
  refine ⟨_, f11, rfl, ?_⟩
  have : d0 ++ written k = d0 ++ le 4 wizardSignature.toNat ++ le 4 (0 : BitVec 64).toNat ++ le 2 k.major.toNat ++ le 2 k.minor.toNat ++
      le 8 k.timestamp.toNat ++ le 4 k.id.length ++ k.id.bytes ++ le 4 k.key.length ++ k.key.bytes ++ le 4 k.nonce.length ++ k.nonce.bytes := by
    unfold written counted mark
    rw [li, lk, ln, show wizardSignature.toNat = 0xabacadab by decide, show (0 : BitVec 64).toNat = 0 by decide]
    simp only [List.append_assoc]
  rw [this]
  exact h

/-- The writes into an existing key ring. -/
theorem importWrites_old {k : KeyringInfo} {m t : StringInfo} {u : List Byte} {fuel : Nat} {e : IOEnv} (hk : KeyOK k) (hh : Header m t)
    (he : Sane e.sched) (hf : e.sched.length + (m.length + t.length) + (written k).length < fuel) :
    ∃ st f', importWrites fuel (openFile (m.bytes ++ t.bytes ++ u) e) m t k = .ok (st, f') ∧ (NoFail e.sched → f'.dead = false) ∧
      ((f'.content = m.bytes ++ t.bytes ++ u ++ written k ∧ f'.dead = false) ∨
       (f'.dead = true ∧ ∃ j, j ≤ (written k).length ∧ f'.content = m.bytes ++ t.bytes ++ u ++ (written k).take j)) := by
  have lm := StringInfo.bytes_length hh.mWF
  have lt := StringInfo.bytes_length hh.tWF
  unfold importWrites
  rw [rdN_bytes hh.mWF, Res.ok_bind]
  have h0 : Same (NoFail e.sched) (m.bytes ++ t.bytes ++ u) e.sched.length (openFile (m.bytes ++ t.bytes ++ u) e) 0 :=
    ⟨fun h => ⟨rfl, h⟩, Nat.le_refl _, rfl, .inl ⟨rfl, he, rfl⟩⟩
  obtain ⟨s1, f1, e1, h1⟩ := h0.write (fuel := fuel) m.bytes (by omega) (by rw [List.drop_zero, List.append_assoc]; exact List.prefix_append ..) (by omega)
  rw [e1, Res.ok_bind, rdN_bytes hh.tWF, Res.ok_bind]
  simp only []
  obtain ⟨s2, f2, e2, h2⟩ := h1.write (fuel := fuel) t.bytes (by simp)
    (by rw [Nat.zero_add, List.append_assoc, List.drop_left' rfl]; exact List.prefix_append ..) (by omega)
  rw [e2, Res.ok_bind]
  simp only []
  have h3 : Prog (NoFail e.sched) (m.bytes ++ t.bytes ++ u) e.sched.length { f2 with pos := f2.content.length } [] := by
    refine ⟨h2.calm, h2.sched, ?_⟩
    rcases h2.progress with ⟨_, p1, p2⟩ | p
    · exact .inl ⟨by simp [h2.content], rfl, p1, p2⟩
    · exact .inr ⟨p, 0, by simp, by simp [h2.content]⟩
  obtain ⟨s3, f3, e3, h4⟩ := writeRecord (Prog _ _ _) s1 s2 hk h3 (fuel := fuel) (fun f d c h hc => h.write c (by omega))
  refine ⟨s3, f3, e3, fun h => (h4.calm h).1, ?_⟩
  rw [List.nil_append] at h4
  rcases h4.progress with ⟨p1, _, _, p2⟩ | ⟨p1, j, p2, p3⟩
  · exact .inl ⟨p1, p2⟩
  · exact .inr ⟨p1, j, p2, p3⟩

/-- The writes into a new key ring. -/
theorem importWrites_new {k : KeyringInfo} {m t : StringInfo} {fuel : Nat} {e : IOEnv} (hk : KeyOK k) (hh : Header m t)
    (he : Sane e.sched) (hf : e.sched.length + (m.length + t.length) + (written k).length < fuel) :
    ∃ st f', importWrites fuel (openFile [] e) m t k = .ok (st, f') ∧ (NoFail e.sched → f'.dead = false) ∧
      ((f'.content = m.bytes ++ t.bytes ++ written k ∧ f'.dead = false) ∨
       (f'.dead = true ∧ ∃ j, j ≤ (m.bytes ++ t.bytes ++ written k).length ∧ f'.content = (m.bytes ++ t.bytes ++ written k).take j)) := by
  have lm := StringInfo.bytes_length hh.mWF
  have lt := StringInfo.bytes_length hh.tWF
  unfold importWrites
  rw [rdN_bytes hh.mWF, Res.ok_bind]
  have h0 : Prog (NoFail e.sched) [] e.sched.length (openFile [] e) [] := ⟨fun h => ⟨rfl, h⟩, Nat.le_refl _, .inl ⟨rfl, rfl, he, rfl⟩⟩
  obtain ⟨s1, f1, e1, h1⟩ := h0.write (fuel := fuel) m.bytes (by omega)
  rw [e1, Res.ok_bind, rdN_bytes hh.tWF, Res.ok_bind]
  simp only []
  obtain ⟨s2, f2, e2, h2⟩ := h1.write (fuel := fuel) t.bytes (by omega)
  rw [e2, Res.ok_bind]
  simp only []
  rw [List.nil_append] at h2
  have h3 : Prog (NoFail e.sched) [] e.sched.length { f2 with pos := f2.content.length } (m.bytes ++ t.bytes) := by
    refine ⟨h2.calm, h2.sched, ?_⟩
    rcases h2.progress with ⟨p1, _, p2, p3⟩ | ⟨p1, j, p2, p3⟩
    · exact .inl ⟨p1, rfl, p2, p3⟩
    · exact .inr ⟨p1, j, p2, p3⟩
  obtain ⟨s3, f3, e3, h4⟩ := writeRecord (Prog _ _ _) s1 s2 hk h3 (fuel := fuel) (fun f d c h hc => h.write c (by omega))
  refine ⟨s3, f3, e3, fun h => (h4.calm h).1, ?_⟩
  rcases h4.progress with ⟨p1, _, _, p2⟩ | ⟨p1, j, p2, p3⟩
  · rw [List.nil_append] at p1
    exact .inl ⟨p1, p2⟩
  · rw [List.nil_append] at p3
    exact .inr ⟨p1, j, p2, p3⟩

theorem importWrites_old_full {k : KeyringInfo} {m t : StringInfo} {u : List Byte} {fuel : Nat} {e : IOEnv} (hk : KeyOK k) (hh : Header m t)
    (he : NoFail e.sched) (hf : e.sched.length + (m.length + t.length) + (written k).length < fuel) :
    ∃ st f', importWrites fuel (openFile (m.bytes ++ t.bytes ++ u) e) m t k = .ok (st, f') ∧
      f'.content = m.bytes ++ t.bytes ++ u ++ written k := by
  obtain ⟨st, f', h1, h2, h3⟩ := importWrites_old (u := u) hk hh he.sane hf
  rcases h3 with ⟨h3, _⟩ | ⟨h3, _⟩
  · exact ⟨st, f', h1, h3⟩
  · rw [h2 he] at h3; cases h3

theorem importWrites_new_full {k : KeyringInfo} {m t : StringInfo} {fuel : Nat} {e : IOEnv} (hk : KeyOK k) (hh : Header m t)
    (he : NoFail e.sched) (hf : e.sched.length + (m.length + t.length) + (written k).length < fuel) :
    ∃ st f', importWrites fuel (openFile [] e) m t k = .ok (st, f') ∧ f'.content = m.bytes ++ t.bytes ++ written k := by
  obtain ⟨st, f', h1, h2, h3⟩ := importWrites_new hk hh he.sane hf
  rcases h3 with ⟨h3, _⟩ | ⟨h3, _⟩
  · exact ⟨st, f', h1, h3⟩
  · rw [h2 he] at h3; cases h3

/-! ### A crash at every byte -/

/-- `n` transfers of one byte, then the process dies. -/
def ticks (n : Nat) : List IOEvent := List.replicate n (.short 0) ++ [.crash 0]

theorem ticks_length (n : Nat) : (ticks n).length = n + 1 := by simp [ticks]

theorem writeLoop_ticks : ∀ (fuel n : Nat) (f : FileIO) (data : List Byte) (i : Nat), f.sched = ticks n → f.dead = false →
    f.pos ≤ f.content.length → i ≤ data.length → n + 1 + (data.length - i) < fuel →
    ∃ st f', writeLoop fuel f data i = .ok (st, f') ∧ f'.sched.length ≤ f.sched.length ∧
      (data.length - i ≤ n → f'.content = (f.put (data.drop i)).content ∧ f'.pos = f.pos + (data.length - i) ∧
        f'.sched = ticks (n - (data.length - i)) ∧ f'.dead = false) ∧
      (n < data.length - i → f'.dead = true ∧ f'.content = (f.put ((data.drop i).take n)).content) := by
  intro fuel
  induction fuel with
  | zero => intro n f data i _ _ _ _ h; omega
  | succ fuel ih =>
    intro n f data i hs hd hp hi hfu
    rw [writeLoop]
    by_cases hlt : i < data.length
    · rw [if_pos hlt]
      have hdl : (data.drop i).length = data.length - i := List.length_drop ..
      unfold sysWrite
      rw [hs]
      cases n with
      | zero =>
        simp only [ticks, List.replicate_zero, List.nil_append, if_true, Bool.false_eq_true, if_false]
        refine ⟨_, _, rfl, by simp, fun h => by omega, fun _ => ⟨rfl, rfl⟩⟩
      | succ n =>
        simp only [ticks, List.replicate_succ, List.cons_append, Nat.zero_add]
        rw [if_neg (by omega)]
        have hm : min (data.drop i).length 1 = 1 := by omega
        rw [hm]
        have hd' : (f.put ((data.drop i).take 1)).dead = false := by
          unfold FileIO.put; rw [hd]; rfl
        have hp' : (f.put ((data.drop i).take 1)).pos = f.pos + 1 := by
          unfold FileIO.put; rw [hd]; simp; omega
        obtain ⟨st, f', a1, a2, a3, a4⟩ := ih n { f.put ((data.drop i).take 1) with sched := ticks n } data (i + 1) rfl hd' (put_pos hp _)
          (by omega) (by omega)
        refine ⟨st, f', a1, ?_, ?_, ?_⟩
        · simp only [ticks_length] at a2
          simp; omega
        · intro h
          obtain ⟨b1, b2, b3, b4⟩ := a3 (by omega)
          refine ⟨?_, ?_, ?_, b4⟩
          · rw [b1, put_put hp hd, ← List.drop_drop, List.take_append_drop]
          · rw [b2]; simp only [hp']; omega
          · rw [b3]; unfold ticks; congr 2; omega
        · intro h
          obtain ⟨b1, b2⟩ := a4 (by omega)
          refine ⟨b1, ?_⟩
          rw [b2, put_put hp hd, ← List.drop_drop, Nat.add_comm n 1, List.take_add]
    · rw [if_neg hlt]
      have : i = data.length := by omega
      subst this
      refine ⟨_, f, rfl, Nat.le_refl _, fun _ => ⟨?_, by simp, by simp [hs], hd⟩, fun h => by omega⟩
      unfold FileIO.put
      rw [hd]; simp

/-- `d` was appended to `base`, or the first `n` bytes of it before the process died. -/
structure Tick (base : List Byte) (n N : Nat) (f : FileIO) (d : List Byte) : Prop where
  sched : f.sched.length ≤ N
  alive : d.length ≤ n → f.content = base ++ d ∧ f.pos = f.content.length ∧ f.sched = ticks (n - d.length) ∧ f.dead = false
  dead : n < d.length → f.dead = true ∧ f.content = base ++ d.take n

theorem Tick.write {base d : List Byte} {n N fuel : Nat} {f : FileIO} (h : Tick base n N f d) (c : List Byte) (hN : n + 1 ≤ N)
    (hf : N + c.length + 1 < fuel) :
    ∃ st f', writeFileChunk fuel f c = .ok (st, f') ∧ Tick base n N f' (d ++ c) := by
  unfold writeFileChunk
  by_cases hd : d.length ≤ n
  · obtain ⟨h1, h2, h3, h4⟩ := h.alive hd
    obtain ⟨st, f', a1, a2, a3, a4⟩ := writeLoop_ticks fuel (n - d.length) f c 0 h3 h4 (by omega) (by omega) (by omega)
    refine ⟨st, f', a1, Nat.le_trans a2 h.sched, ?_, ?_⟩
    · intro hl
      rw [List.length_append] at hl
      obtain ⟨b1, b2, b3, b4⟩ := a3 (by omega)
      rw [List.drop_zero, put_end h4 h2, h1, List.append_assoc] at b1
      refine ⟨b1, ?_, ?_, b4⟩
      · rw [b2, h2, h1, b1]; simp; omega
      · rw [b3]; congr 1; simp; omega
    · intro hl
      rw [List.length_append] at hl
      obtain ⟨b1, b2⟩ := a4 (by omega)
      rw [List.drop_zero, put_end h4 h2, h1, List.append_assoc] at b2
      refine ⟨b1, ?_⟩
      rw [b2, List.take_append, List.take_of_length_le hd]
  · obtain ⟨h1, h2⟩ := h.dead (by omega)
    obtain ⟨st, f', a1, a2, a3, a4⟩ := writeLoop_dead fuel f c 0 h1 (by have := h.sched; omega)
    refine ⟨st, f', a1, Nat.le_trans a4 h.sched, fun hl => ?_, fun _ => ⟨a3, ?_⟩⟩
    · rw [List.length_append] at hl; omega
    · rw [a2, h2, List.take_append_of_le_length (by omega)]

theorem Tick.same {content : List Byte} {n p fuel : Nat} {f : FileIO} (c : List Byte) (hs : f.sched = ticks n) (hd : f.dead = false)
    (hcon : f.content = content) (hpos : f.pos = p) (hp : p ≤ content.length) (hc : c <+: content.drop p) (hn : c.length ≤ n)
    (hf : n + 1 + c.length < fuel) :
    ∃ st f', writeFileChunk fuel f c = .ok (st, f') ∧ f'.sched = ticks (n - c.length) ∧ f'.dead = false ∧ f'.content = content ∧
      f'.pos = p + c.length := by
  obtain ⟨st, f', a1, a2, a3, a4⟩ := writeLoop_ticks fuel n f c 0 hs hd (by rw [hcon]; omega) (by omega) (by omega)
  obtain ⟨b1, b2, b3, b4⟩ := a3 (by omega)
  rw [List.drop_zero, put_same (by rw [hcon]; omega) (by rw [hcon, hpos]; exact hc)] at b1
  exact ⟨st, f', a1, b3, b4, b1.trans hcon, by omega⟩

/-- A crash after `j` bytes of the record of an existing key ring. -/
theorem importWrites_crash_old {k : KeyringInfo} {m t : StringInfo} {u : List Byte} {fuel j : Nat} (hk : KeyOK k) (hh : Header m t)
    (hj : j < (written k).length) (hf : 2 * (m.length + t.length + (written k).length) + 2 < fuel) :
    ∃ st f', importWrites fuel (openFile (m.bytes ++ t.bytes ++ u) ⟨false, ticks (m.length + t.length + j)⟩) m t k = .ok (st, f') ∧
      f'.dead = true ∧ f'.content = m.bytes ++ t.bytes ++ u ++ (written k).take j := by
  have lm := StringInfo.bytes_length hh.mWF
  have lt := StringInfo.bytes_length hh.tWF
  unfold importWrites
  rw [rdN_bytes hh.mWF, Res.ok_bind]
  obtain ⟨s1, f1, e1, a1, a2, a3, a4⟩ := Tick.same (fuel := fuel) (content := m.bytes ++ t.bytes ++ u) (n := m.length + t.length + j) (p := 0)
    (f := openFile (m.bytes ++ t.bytes ++ u) ⟨false, ticks (m.length + t.length + j)⟩) m.bytes rfl rfl rfl rfl (by omega)
    (by rw [List.drop_zero, List.append_assoc]; exact List.prefix_append ..) (by omega) (by omega)
  rw [e1, Res.ok_bind, rdN_bytes hh.tWF, Res.ok_bind]
  simp only []
  obtain ⟨s2, f2, e2, b1, b2, b3, b4⟩ := Tick.same (fuel := fuel) t.bytes a1 a2 a3 a4 (by simp)
    (by rw [Nat.zero_add, List.append_assoc, List.drop_left' rfl]; exact List.prefix_append ..) (by omega) (by omega)
  rw [e2, Res.ok_bind]
  simp only []
  have hb1 : f2.sched = ticks j := by rw [b1]; congr 1; omega
  have h3 : Tick (m.bytes ++ t.bytes ++ u) j (j + 1) { f2 with pos := f2.content.length } [] :=
    ⟨by simp [hb1, ticks_length], fun _ => ⟨by simp [b3], rfl, hb1, b2⟩, fun h => by simp at h⟩
  obtain ⟨s3, f3, e3, h4⟩ := writeRecord (Tick _ _ _) s1 s2 hk h3 (fuel := fuel) (fun f d c h hc => h.write c (by omega) (by omega))
  rw [List.nil_append] at h4
  obtain ⟨p1, p2⟩ := h4.dead hj
  exact ⟨s3, f3, e3, p1, p2⟩

/-- A crash after `j` bytes of a new key ring. -/
theorem importWrites_crash_new {k : KeyringInfo} {m t : StringInfo} {fuel j : Nat} (hk : KeyOK k) (hh : Header m t)
    (hj : j < (m.bytes ++ t.bytes ++ written k).length) (hf : 2 * (m.length + t.length + (written k).length) + 2 < fuel) :
    ∃ st f', importWrites fuel (openFile [] ⟨false, ticks j⟩) m t k = .ok (st, f') ∧
      f'.dead = true ∧ f'.content = (m.bytes ++ t.bytes ++ written k).take j := by
  have lm := StringInfo.bytes_length hh.mWF
  have lt := StringInfo.bytes_length hh.tWF
  have hj' := hj
  rw [List.length_append, List.length_append] at hj'
  unfold importWrites
  rw [rdN_bytes hh.mWF, Res.ok_bind]
  have h0 : Tick [] j (j + 1) (openFile [] ⟨false, ticks j⟩) [] := 
    ⟨by simp [openFile, ticks_length], fun _ => ⟨rfl, rfl, rfl, rfl⟩, fun h => by simp at h⟩
  obtain ⟨s1, f1, e1, h1⟩ := h0.write (fuel := fuel) m.bytes (by omega) (by omega)
  rw [e1, Res.ok_bind, rdN_bytes hh.tWF, Res.ok_bind]
  simp only []
  obtain ⟨s2, f2, e2, h2⟩ := h1.write (fuel := fuel) t.bytes (by omega) (by omega)
  rw [e2, Res.ok_bind]
  simp only []
  rw [List.nil_append] at h2
  have h3 : Tick [] j (j + 1) { f2 with pos := f2.content.length } (m.bytes ++ t.bytes) :=
    ⟨h2.sched, fun h => by obtain ⟨p1, _, p2, p3⟩ := h2.alive h; exact ⟨p1, rfl, p2, p3⟩, h2.dead⟩
  obtain ⟨s3, f3, e3, h4⟩ := writeRecord (Tick _ _ _) s1 s2 hk h3 (fuel := fuel) (fun f d c h hc => h.write c (by omega) (by omega))
  obtain ⟨p1, p2⟩ := h4.dead hj
  rw [List.nil_append] at p2
  exact ⟨s3, f3, e3, p1, p2⟩

end Wizard

import Verif.Lemmas.Key
/-! C46, C80: the keys in memory. -/
namespace Wizard.Props
open Wizard Wizard.Spec Wizard.Spec.Key

theorem beNat_half (a : List Byte) : ∀ n, beNat (a ++ List.replicate n 0) = beNat a * 256 ^ n := by
  intro n
  induction n with
  | zero => simp
  | succ n ih =>
    rw [List.replicate_succ', ← List.append_assoc, beNat_append, ih, Nat.pow_succ]
    show 256 * (beNat a * 256 ^ n) + 0 = _
    rw [Nat.add_zero, ← Nat.mul_assoc, Nat.mul_comm 256, Nat.mul_assoc, Nat.mul_comm 256]

theorem beNat_lt (a : List Byte) : beNat a < 256 ^ a.length := by
  have : ∀ n (a : List Byte), a.length = n → beNat a < 256 ^ n := by
    intro n
    induction n with
    | zero => intro a h; rw [List.length_eq_zero_iff.mp h]; decide
    | succ n ih =>
      intro a h
      have hne : a ≠ [] := by intro e; rw [e] at h; cases h
      rw [← List.dropLast_concat_getLast hne, beNat_append, Nat.pow_succ]
      have := ih a.dropLast (by simp [h])
      have := (a.getLast hne).isLt
      omega
  exact this _ a rfl

/-- The nonce of a new store leaves room for every key. -/
theorem store_nonce (draw : Nat → Byte) : ∃ n, generateCipherNonce .ctr 16 draw = .ok n ∧ NonceOK n := by
  obtain ⟨n, h1, h2, h3, _, h4⟩ := C68_generated_nonce .ctr 16 (by decide) draw
  refine ⟨n, h1, h2, h3, ?_⟩
  rw [h4 rfl, beNat_half]
  have := beNat_lt ((List.range ((16 + 1) / 2)).map draw)
  simp only [List.length_map, List.length_range] at this
  have e1 : (256 : Nat) ^ ((16 + 1) / 2) = 2 ^ 64 := by decide
  have e2 : (256 : Nat) ^ (16 - (16 + 1) / 2) = 2 ^ 64 := by decide
  have e3 : (256 : Nat) ^ 16 = 2 ^ 64 * 2 ^ 64 := by decide
  rw [e1] at this
  rw [e2, e3]
  omega

theorem acquire_inv (draw draw' : Nat → Byte) {id key : StringInfo} (hid : id.WF) (hkey : key.WF) (hidl : id.length + 128 < 2 ^ 64)
    (hkeyl : key.length + 128 < 2 ^ 64) :
    ∃ k nonce l, acquireKeyInfo draw draw' id key = .ok k ∧ StoreInv k id.bytes key.bytes nonce (fun _ => none) l ∧ l.length = 1 := by
  have hsz : sizeMax = 2 ^ 64 := by unfold sizeMax; rfl
  have hmc : maxCipherBlocksize = 128 := rfl
  obtain ⟨c, h1, h2, h3⟩ := (C68_ready (aesCipher []) (by decide) (by decide) (aes_sized_invertible _).1).1 .ctr draw draw
  obtain ⟨n, n1, n2⟩ := store_nonce draw'
  obtain ⟨a, a1, a2, a3, a4, _⟩ := C03_clone id hid (by omega)
  obtain ⟨b, b1, b2, b3, b4, _⟩ := C03_clone key hkey (by omega)
  have hh : HeapWF [id, a, b] := by
    intro s hs
    simp only [List.mem_cons, List.not_mem_nil, or_false] at hs
    rcases hs with rfl | rfl | rfl
    · exact hid
    · exact a2
    · exact b2
  obtain ⟨m, m1, m2, _⟩ := addValue_spec (compareAt_order hh) (new_inv (some (compareAt [id, a, b]))) (by decide) 2 3
  have hput : SMap.put (cmpKeys (some (compareAt [id, a, b]))) [] 2 3 = [(2, 3)] := rfl
  rw [hput] at m2
  have hb : ∀ x, boundTo [id, a, b] [(2, 3)] x = if x = id.bytes then some 3 else none := by
    intro x
    rw [← a4, ← hput, boundTo_put hh]
    rfl
  refine ⟨⟨m, [id, a, b], 1, n, c⟩, n.bytes, [(2, 3)], ?_, ⟨hh, ?_, ?_, m2, ⟨Nat.le_refl 1, by show 1 ≤ 3; omega, rfl⟩, n2, rfl,
    ⟨h2.nonce, by rw [h2.nonceLength, h3]; rfl⟩, ⟨3, by show boundTo [id, a, b] [(2, 3)] id.bytes = some 3; rw [hb, if_pos rfl], b4⟩, ?_⟩, rfl⟩
  · unfold acquireKeyInfo
    rw [h1, Res.ok_bind, h3]
    show (generateCipherNonce .ctr 16 draw' >>= _) = _
    rw [n1, Res.ok_bind, a1, Res.ok_bind, b1, Res.ok_bind]
    simp only []
    rw [m1, Res.ok_bind]
  · intro s hs
    simp only [List.mem_cons, List.not_mem_nil, or_false] at hs
    rcases hs with rfl | rfl | rfl <;> omega
  · intro x hx
    rw [List.mem_singleton] at hx
    rw [hx]
    show (1 ≤ 2 ∧ 2 ≤ 3) ∧ (1 ≤ 3 ∧ 3 ≤ 3)
    omega
  · intro x hx
    show boundTo [id, a, b] [(2, 3)] x = none
    rw [hb, if_neg hx]

theorem run_spec (ops : List KeyOp) : ∀ {k : KeyInfo} {sid skey nonce : List Byte} {st : Store} {l : SMap}, StoreInv k sid skey nonce st l →
    l.length + ops.length < 2 ^ 64 → (∀ op ∈ ops, op.OK) → (∀ op ∈ ops, op.id ≠ sid) →
    run k ops = match Store.run st ops with | some o => .ok o | none => .fatal := by
  induction ops with
  | nil => intro k sid skey nonce st l _ _ _ _; rfl
  | cons op ops ih =>
    intro k sid skey nonce st l h hl hok hid
    rw [List.length_cons] at hl
    have hok' := fun x hx => hok x (List.mem_cons_of_mem _ hx)
    have hid' := fun x hx => hid x (List.mem_cons_of_mem _ hx)
    have h1 := hok op (List.mem_cons_self ..)
    have h2 := hid op (List.mem_cons_self ..)
    cases op with
    | store id key random =>
      obtain ⟨k', l', e1, e2, e3⟩ := setKeyInfo_spec h (by omega) random h1.1 h1.2.1 h1.2.2.1 h1.2.2.2 h2
      rw [run, exec, e1, Res.ok_bind, Res.ok_bind]
      rw [ih e3 (by omega) hok' hid', Store.run]
      show _ = match (Store.run (fun x => if x = id.bytes then some key.bytes else st x) ops).map (fun o => none :: o) with | some o => _ | none => _
      cases Store.run (fun x => if x = id.bytes then some key.bytes else st x) ops <;> rfl
    | get id random =>
      have := getKeyInfo_spec h (by omega) random h1.1 h1.2 h2
      rw [run, exec, Store.run, Store.step]
      cases hst : st id.bytes with
      | none =>
        rw [hst] at this
        have this : getKeyInfo k random id = .fatal := this
        rw [this]
        rfl
      | some key =>
        rw [hst] at this
        obtain ⟨r, k', e1, e2, e3⟩ := this
        rw [e1, Res.ok_bind, Res.ok_bind]
        simp only []
        rw [ih e3 (by omega) hok' hid', e2]
        show _ = match (Store.run st ops).map (fun o => some key :: o) with | some o => _ | none => _
        cases Store.run st ops <;> rfl

/-- **C46**, for ids other than the random session id: for every session id and session key, every random nonce and padding, and
every history of stores and lookups, the lookups return the keys last stored, and a lookup of an id never stored is a fatal
error.  Missing: the session id itself, under which the object keeps its own key. -/
theorem C46_store_partial (draw draw' : Nat → Byte) (id key : StringInfo) (hid : id.WF) (hkey : key.WF) (hidl : id.length + 128 < 2 ^ 64)
    (hkeyl : key.length + 128 < 2 ^ 64) (ops : List KeyOp) (hn : ops.length + 1 < 2 ^ 64) (hok : ∀ op ∈ ops, op.OK)
    (hne : ∀ op ∈ ops, op.id ≠ id.bytes) :
    (do let k ← acquireKeyInfo draw draw' id key; run k ops) =
      match Store.run (fun _ => none) ops with | some o => .ok o | none => .fatal := by
  obtain ⟨k, nonce, l, h1, h2, h3⟩ := acquire_inv draw draw' hid hkey hidl hkeyl
  rw [h1, Res.ok_bind]
  exact run_spec ops h2 (by omega) hok hne

-- a history with an overwritten key and two lookups
example : ∃ (i j a b : StringInfo) (z : Nat → Byte), let ops : List KeyOp := [.store i a z, .store j b z, .store i b z, .get i z, .get j z]
    (∀ op ∈ ops, op.OK) ∧ Store.run (fun _ => none) ops = some [none, none, none, some b.bytes, some b.bytes] := by
  refine ⟨⟨1, List.replicate 200 1⟩, ⟨1, List.replicate 200 2⟩, ⟨20, List.replicate 200 3⟩, ⟨0, List.replicate 200 3⟩, fun _ => 0, ?_, ?_⟩
  · intro op hop
    simp only [List.mem_cons, List.not_mem_nil, or_false] at hop
    rcases hop with rfl | rfl | rfl | rfl | rfl <;>
      simp only [KeyOp.OK, StringInfo.WF, maxCipherBlocksize, List.length_replicate] <;> omega
  · decide

/-- The key streams of all stored keys are the same. -/
theorem sealed_xor (skey : List Byte) (nonce : List Byte) (a b : List Byte) (v w : StringInfo)
    (hv : Sealed skey nonce a v) (hw : Sealed skey nonce b w) :
    ∀ i, i < a.length → i < b.length → v.bytes.getD i 0 ^^^ w.bytes.getD i 0 = a.getD i 0 ^^^ b.getD i 0 := by
  obtain ⟨n, r, s, s', a1, a2, a3, a4, a5, a6, a7, _⟩ := hv
  obtain ⟨m, q, t, t', b1, b2, b3, b4, b5, b6, b7, _⟩ := hw
  intro i hi hj
  have hr := storeCipher_ready skey r a1 a2
  have hq := storeCipher_ready skey q b1 b2
  have la := StringInfo.bytes_length a4
  have lb := StringInfo.bytes_length b4
  obtain ⟨_, _, e1, _⟩ := encipher_byte .ctr _ hr s s' a4 a6
  obtain ⟨_, _, e2, _⟩ := encipher_byte .ctr _ hq t t' b4 b6
  rw [a5] at la
  rw [b5] at lb
  rw [a7, b7, e1 rfl i (by omega), e2 rfl i (by omega), a5, b5]
  show a.getD i 0 ^^^ _ ^^^ (b.getD i 0 ^^^ _) = _
  have hn : (storeCipher skey m q).nonce.bytes = (storeCipher skey n r).nonce.bytes := by
    show m.bytes = n.bytes
    rw [a3, b3]
  rw [hn]
  have x : ∀ a b k : Byte, (a ^^^ k) ^^^ (b ^^^ k) = a ^^^ b := by
    intro a b k
    rw [BitVec.xor_comm b k, BitVec.xor_assoc, ← BitVec.xor_assoc k k, BitVec.xor_self, BitVec.zero_xor]
  exact x _ _ _

theorem after_spec (ops : List KeyOp) : ∀ {k : KeyInfo} {sid skey nonce : List Byte} {st st' : Store} {l : SMap}, StoreInv k sid skey nonce st l →
    l.length + ops.length < 2 ^ 64 → (∀ op ∈ ops, op.OK) → (∀ op ∈ ops, op.id ≠ sid) → Store.after st ops = some st' →
    ∃ k' l', after k ops = .ok k' ∧ StoreInv k' sid skey nonce st' l' ∧ l'.length < 2 ^ 64 := by
  induction ops with
  | nil =>
    intro k sid skey nonce st st' l h hl _ _ e
    cases e
    exact ⟨k, l, rfl, h, hl⟩
  | cons op ops ih =>
    intro k sid skey nonce st st' l h hl hok hid e
    rw [List.length_cons] at hl
    have hok' := fun x hx => hok x (List.mem_cons_of_mem _ hx)
    have hid' := fun x hx => hid x (List.mem_cons_of_mem _ hx)
    have h1 := hok op (List.mem_cons_self ..)
    have h2 := hid op (List.mem_cons_self ..)
    cases op with
    | store id key random =>
      obtain ⟨k', l', e1, e2, e3⟩ := setKeyInfo_spec h (by omega) random h1.1 h1.2.1 h1.2.2.1 h1.2.2.2 h2
      rw [after, exec, e1, Res.ok_bind, Res.ok_bind]
      exact ih e3 (by omega) hok' hid' e
    | get id random =>
      have := getKeyInfo_spec h (by omega) random h1.1 h1.2 h2
      rw [after, exec]
      rw [Store.after, Store.step] at e
      cases hst : st id.bytes with
      | none => rw [hst] at e; cases e
      | some key =>
        rw [hst] at this e
        obtain ⟨r, k', e1, e2, e3⟩ := this
        rw [e1, Res.ok_bind, Res.ok_bind]
        exact ih e3 (by omega) hok' hid' e

theorem inMemory_sealed {k : KeyInfo} {sid skey nonce key : List Byte} {st : Store} {l : SMap} (h : StoreInv k sid skey nonce st l)
    (hl : l.length < 2 ^ 64) {i : StringInfo} (hi : i.WF) (hil : i.length + 128 < 2 ^ 64) (hne : i.bytes ≠ sid) (hst : st i.bytes = some key) :
    ∃ v, inMemory k i = .ok v.bytes ∧ Sealed skey nonce key v := by
  have ha := append_inv h [i] (fun s hs => by rw [List.mem_singleton] at hs; rw [hs]; exact hi)
    (fun s hs => by rw [List.mem_singleton] at hs; rw [hs]; exact hil)
  obtain ⟨g, h4, h5, h6, _⟩ := getFromSplay_spec (compareAt_order ha.heap) ha.map hl (k.heap ++ [i]).length
  have hat : stringAt (k.heap ++ [i]) (k.heap ++ [i]).length = i := by
    unfold stringAt
    simp
  rw [get_boundTo ha.heap] at h5
  have h5 : g.1 = (boundTo (k.heap ++ [i]) l i.bytes).getD 0 := by rw [h5]; exact congrArg (fun x => (boundTo (k.heap ++ [i]) l x.bytes).getD 0) hat
  have hs := ha.store i.bytes hne
  rw [hst] at hs
  obtain ⟨v, hv, hsealed⟩ := hs
  have hv : boundTo (k.heap ++ [i]) l i.bytes = some v := hv
  rw [hv] at h5
  have h5 : g.1 = v := h5
  obtain ⟨b, hb, hbv⟩ := boundTo_mem hv
  have hvalid := (ha.valid b hb).2
  refine ⟨_, ?_, hsealed⟩
  unfold inMemory
  simp only []
  have h4 : getFromSplay (some (compareAt (k.heap ++ [i]))) k.map (k.heap ++ [i]).length = .ok g := h4
  rw [h4, Res.ok_bind, if_neg (by rw [h5]; omega), h5]

/-- **C80 is false**: all keys are enciphered with the same key stream, because `SetKeyInfo` sets the same nonce every time
(key.c:324).  After every history, for every two ids that hold keys, the exclusive or of what the memory holds for them is that of
the two keys: whoever reads the memory and knows one key has all the others, up to the length of the known one. -/
theorem C80_keystream_violated (draw draw' : Nat → Byte) (id key : StringInfo) (hid : id.WF) (hkey : key.WF) (hidl : id.length + 128 < 2 ^ 64)
    (hkeyl : key.length + 128 < 2 ^ 64) (ops : List KeyOp) (hn : ops.length + 1 < 2 ^ 64) (hok : ∀ op ∈ ops, op.OK)
    (hne : ∀ op ∈ ops, op.id ≠ id.bytes) (st : Store) (hst : Store.after (fun _ => none) ops = some st)
    (i j : StringInfo) (hi : i.WF ∧ i.length + 128 < 2 ^ 64 ∧ i.bytes ≠ id.bytes) (hj : j.WF ∧ j.length + 128 < 2 ^ 64 ∧ j.bytes ≠ id.bytes)
    (a b : List Byte) (ha : st i.bytes = some a) (hb : st j.bytes = some b) :
    ∃ k v w, (do let k ← acquireKeyInfo draw draw' id key; after k ops) = .ok k ∧ inMemory k i = .ok v ∧ inMemory k j = .ok w ∧
      ∀ n, n < a.length → n < b.length → v.getD n 0 ^^^ w.getD n 0 = a.getD n 0 ^^^ b.getD n 0 := by
  obtain ⟨k, nonce, l, h1, h2, h3⟩ := acquire_inv draw draw' hid hkey hidl hkeyl
  obtain ⟨k', l', e1, e2, e3⟩ := after_spec ops h2 (by omega) hok hne hst
  obtain ⟨v, v1, v2⟩ := inMemory_sealed e2 e3 hi.1 hi.2.1 hi.2.2 ha
  obtain ⟨w, w1, w2⟩ := inMemory_sealed e2 e3 hj.1 hj.2.1 hj.2.2 hb
  exact ⟨k', v.bytes, w.bytes, by rw [h1, Res.ok_bind, e1], v1, w1, sealed_xor _ _ _ _ _ _ v2 w2⟩

-- two ids with keys
example : ∃ (i j a b : StringInfo) (z : Nat → Byte) (st : Store), Store.after (fun _ => none) [.store i a z, .store j b z] = some st ∧
    st i.bytes = some [7, 8] ∧ st j.bytes = some [9, 10, 11] :=
  ⟨⟨1, 1 :: List.replicate 128 0⟩, ⟨1, 2 :: List.replicate 128 0⟩, ⟨2, 7 :: 8 :: List.replicate 128 0⟩,
    ⟨3, 9 :: 10 :: 11 :: List.replicate 128 0⟩, fun _ => 0, _, rfl, by decide, by decide⟩

end Wizard.Props

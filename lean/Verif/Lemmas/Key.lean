import Verif.Spec.Key
import Verif.Props.StringInfo
import Verif.Props.Cipher
import Verif.Props.SplayTree
/-! Lemmas for key.c. -/
namespace Wizard
open Wizard.Spec Wizard.Spec.Key

/-- All byte strings are well formed. -/
def HeapWF (heap : List StringInfo) : Prop := ∀ s ∈ heap, s.WF

theorem stringAt_wf {heap : List StringInfo} (h : HeapWF heap) (p : Nat) : (stringAt heap p).WF := by
  unfold stringAt
  rw [List.getD_eq_getElem?_getD]
  cases e : heap[p - 1]? with
  | none => show 0 + 128 ≤ (List.replicate 128 (0 : Byte)).length; rw [List.length_replicate]; omega
  | some s => exact h s (List.mem_of_getElem? e)

theorem stringAt_append {heap : List StringInfo} (ext : List StringInfo) {p : Nat} (h1 : 1 ≤ p) (h2 : p ≤ heap.length) :
    stringAt (heap ++ ext) p = stringAt heap p := by
  unfold stringAt
  rw [List.getD_eq_getElem?_getD, List.getD_eq_getElem?_getD, List.getElem?_append_left (by omega)]

theorem compareAt_spec {heap : List StringInfo} (h : HeapWF heap) (a b : Nat) :
    (compareAt heap a b < 0 ↔ DictLT (stringAt heap a).bytes (stringAt heap b).bytes) ∧
    (0 < compareAt heap a b ↔ DictLT (stringAt heap b).bytes (stringAt heap a).bytes) ∧
    (compareAt heap a b = 0 ↔ (stringAt heap a).bytes = (stringAt heap b).bytes) := by
  obtain ⟨r, h1, h2⟩ := Props.C02_compare_is_dictionary_order _ _ (stringAt_wf h a) (stringAt_wf h b)
  unfold compareAt
  rw [h1]
  exact h2

theorem compareAt_order {heap : List StringInfo} (h : HeapWF heap) : IsOrder (cmpKeys (some (compareAt heap))) := by
  have s := compareAt_spec h
  refine ⟨fun a => ((s a a).2.2).mpr rfl, fun a b => ?_, fun a b c h1 h2 => ?_⟩
  · show compareAt heap a b < 0 ↔ 0 < compareAt heap b a
    rw [(s a b).1, (s b a).2.1]
  · show compareAt heap a c ≤ 0
    have e1 : ¬ DictLT (stringAt heap b).bytes (stringAt heap a).bytes := fun x => by
      have := (s a b).2.1.mpr x
      have : compareAt heap a b ≤ 0 := h1
      omega
    have e2 : ¬ DictLT (stringAt heap c).bytes (stringAt heap b).bytes := fun x => by
      have := (s b c).2.1.mpr x
      have : compareAt heap b c ≤ 0 := h2
      omega
    have e3 : ¬ DictLT (stringAt heap c).bytes (stringAt heap a).bytes := by
      intro x
      rcases dict_total (stringAt heap a).bytes (stringAt heap b).bytes with y | y | y
      · exact e2 (dict_trans x y)
      · rw [y] at x; exact e2 x
      · exact e1 y
    have := (not_congr (s a c).2.1).mpr e3
    omega

/-- The addresses of the map are valid. -/
def Valid (heap : List StringInfo) (l : SMap) : Prop := ∀ b ∈ l, (1 ≤ b.1 ∧ b.1 ≤ heap.length) ∧ (1 ≤ b.2 ∧ b.2 ≤ heap.length)

/-- The address bound to the id with the given bytes. -/
def boundTo (heap : List StringInfo) (l : SMap) (id : List Byte) : Option Nat :=
  (l.find? (fun b => (stringAt heap b.1).bytes == id)).map Prod.snd

theorem find?_congr' {α : Type} {l : List α} {f g : α → Bool} (h : ∀ a ∈ l, f a = g a) : l.find? f = l.find? g := by
  induction l with
  | nil => rfl
  | cons a l ih =>
    rw [List.find?_cons, List.find?_cons, h a (List.mem_cons_self ..), ih (fun b hb => h b (List.mem_cons_of_mem _ hb))]

theorem boundTo_append {heap : List StringInfo} (ext : List StringInfo) {l : SMap} (h : Valid heap l) (id : List Byte) :
    boundTo (heap ++ ext) l id = boundTo heap l id := by
  unfold boundTo
  rw [find?_congr' (g := fun b => (stringAt heap b.1).bytes == id)]
  intro b hb
  rw [stringAt_append ext (h b hb).1.1 (h b hb).1.2]

theorem get_boundTo {heap : List StringInfo} (h : HeapWF heap) (l : SMap) (p : Nat) :
    SMap.get (cmpKeys (some (compareAt heap))) l p = (boundTo heap l (stringAt heap p).bytes).getD 0 := by
  unfold SMap.get boundTo
  congr 2
  apply find?_congr'
  intro b _
  rw [Bool.eq_iff_iff]
  simp only [beq_iff_eq]
  exact (compareAt_spec h b.1 p).2.2

theorem find?_filter_eq {α : Type} {l : List α} {p f : α → Bool} (h : ∀ a ∈ l, f a = true → p a = true) : (l.filter p).find? f = l.find? f := by
  induction l with
  | nil => rfl
  | cons a l ih =>
    have ih := ih (fun b hb => h b (List.mem_cons_of_mem _ hb))
    rw [List.filter_cons]
    cases hf : f a with
    | true =>
      rw [if_pos (h a (List.mem_cons_self ..) hf), List.find?_cons, List.find?_cons, hf]
    | false =>
      split
      · rw [List.find?_cons, List.find?_cons, hf]; exact ih
      · rw [List.find?_cons, hf]; exact ih

theorem boundTo_put {heap : List StringInfo} (h : HeapWF heap) (l : SMap) (k v : Nat) (id : List Byte) :
    boundTo heap (SMap.put (cmpKeys (some (compareAt heap))) l k v) id =
      if id = (stringAt heap k).bytes then some v else boundTo heap l id := by
  have s := compareAt_spec h
  unfold boundTo SMap.put
  rw [List.find?_append, List.find?_cons]
  by_cases e : id = (stringAt heap k).bytes
  · rw [if_pos e]
    have h1 : (l.filter fun b => decide (cmpKeys (some (compareAt heap)) b.1 k < 0)).find? (fun b => (stringAt heap b.1).bytes == id) = none := by
      rw [List.find?_eq_none]
      intro x hx
      have hx := (List.mem_filter.mp hx).2
      have hx : compareAt heap x.1 k < 0 := of_decide_eq_true hx
      have := dict_ne ((s x.1 k).1.mp hx)
      rw [e]
      simpa using this
    rw [h1, show ((stringAt heap k).bytes == id) = true by simp [e]]
    simp
  · rw [if_neg e, show ((stringAt heap k).bytes == id) = false by simp; exact fun x => e x.symm]
    simp only []
    by_cases hx : ∃ x ∈ l, (stringAt heap x.1).bytes = id
    · -- on which side of `k` is the id
      have hd : DictLT id (stringAt heap k).bytes ∨ DictLT (stringAt heap k).bytes id := by
        rcases dict_total id (stringAt heap k).bytes with y | y | y
        · exact .inl y
        · exact absurd y e
        · exact .inr y
      rcases hd with hd | hd
      · have h1 : (l.filter fun b => decide (cmpKeys (some (compareAt heap)) b.1 k < 0)).find? (fun b => (stringAt heap b.1).bytes == id) =
            l.find? (fun b => (stringAt heap b.1).bytes == id) := by
          apply find?_filter_eq
          intro a _ ha
          have ha : (stringAt heap a.1).bytes = id := by simpa using ha
          have : compareAt heap a.1 k < 0 := (s a.1 k).1.mpr (by rw [ha]; exact hd)
          exact decide_eq_true this
        have h2 : (l.filter fun b => decide (0 < cmpKeys (some (compareAt heap)) b.1 k)).find? (fun b => (stringAt heap b.1).bytes == id) = none := by
          rw [List.find?_eq_none]
          intro x hx
          have hx := (List.mem_filter.mp hx).2
          have hx : 0 < compareAt heap x.1 k := of_decide_eq_true hx
          have := (s x.1 k).2.1.mp hx
          intro hc
          have hc : (stringAt heap x.1).bytes = id := by simpa using hc
          rw [hc] at this
          exact dict_asymm hd this
        rw [h1, h2]
        simp
      · have h1 : (l.filter fun b => decide (0 < cmpKeys (some (compareAt heap)) b.1 k)).find? (fun b => (stringAt heap b.1).bytes == id) =
            l.find? (fun b => (stringAt heap b.1).bytes == id) := by
          apply find?_filter_eq
          intro a _ ha
          have ha : (stringAt heap a.1).bytes = id := by simpa using ha
          have : 0 < compareAt heap a.1 k := (s a.1 k).2.1.mpr (by rw [ha]; exact hd)
          exact decide_eq_true this
        have h2 : (l.filter fun b => decide (cmpKeys (some (compareAt heap)) b.1 k < 0)).find? (fun b => (stringAt heap b.1).bytes == id) = none := by
          rw [List.find?_eq_none]
          intro x hx
          have hx := (List.mem_filter.mp hx).2
          have hx : compareAt heap x.1 k < 0 := of_decide_eq_true hx
          have := (s x.1 k).1.mp hx
          intro hc
          have hc : (stringAt heap x.1).bytes = id := by simpa using hc
          rw [hc] at this
          exact dict_asymm hd this
        rw [h1, h2]
        simp
    · have hn : ∀ p : Nat × Nat → Bool, (l.filter p).find? (fun b => (stringAt heap b.1).bytes == id) = none := by
        intro p
        rw [List.find?_eq_none]
        intro x hx' hc
        exact hx ⟨x, (List.mem_filter.mp hx').1, by simpa using hc⟩
      have hn' : l.find? (fun b => (stringAt heap b.1).bytes == id) = none := by
        rw [List.find?_eq_none]
        intro x hx' hc
        exact hx ⟨x, hx', by simpa using hc⟩
      rw [hn, hn, hn']
      rfl

theorem sinv_append {heap : List StringInfo} (ext : List StringInfo) {m : SplayTree} {l : SMap} (hv : Valid heap l)
    (h : SInv (some (compareAt heap)) m l) : SInv (some (compareAt (heap ++ ext))) m l := by
  refine ⟨h.list, ?_, h.nodes, fun e => by cases e⟩
  have := h.asc
  unfold Asc at this ⊢
  refine List.Pairwise.imp_of_mem ?_ this
  intro a b ha hb hab
  show compareAt (heap ++ ext) a.1 b.1 < 0
  have hab : compareAt heap a.1 b.1 < 0 := hab
  unfold compareAt at hab ⊢
  rwa [stringAt_append ext (hv a ha).1.1 (hv a ha).1.2, stringAt_append ext (hv b hb).1.1 (hv b hb).1.2]

theorem boundTo_mem {heap : List StringInfo} {l : SMap} {id : List Byte} {v : Nat} (h : boundTo heap l id = some v) : ∃ b ∈ l, b.2 = v := by
  unfold boundTo at h
  rw [Option.map_eq_some_iff] at h
  obtain ⟨b, h1, h2⟩ := h
  exact ⟨b, List.mem_of_find?_eq_some h1, h2⟩

/-- The nonce leaves room for every message. -/
structure NonceOK (n : StringInfo) : Prop where
  wf : n.WF
  length : n.length = 16
  room : beNat n.bytes + 2 ^ 64 ≤ 256 ^ 16

/-- The cipher the store uses. -/
def storeCipher (skey : List Byte) (nonce : StringInfo) (random : Nat → Byte) : CipherInfo := ⟨aesCipher skey, nonce, random⟩

theorem storeCipher_ready (skey : List Byte) {nonce : StringInfo} (random : Nat → Byte) (h1 : nonce.WF) (h2 : nonce.length = 16) :
    (storeCipher skey nonce random).Ready :=
  ⟨by show 0 < 16; decide, by show 16 ≤ 128; decide, h1, h2, (Props.aes_sized_invertible skey).1⟩

/-- `v` is the key enciphered. -/
def Sealed (skey : List Byte) (nonce : List Byte) (key : List Byte) (v : StringInfo) : Prop :=
  ∃ (n : StringInfo) (random : Nat → Byte) (s s' : StringInfo), n.WF ∧ n.length = 16 ∧ n.bytes = nonce ∧ s.WF ∧ s.bytes = key ∧
    encipherCipher .ctr (storeCipher skey n random) s = .ok s' ∧ v.bytes = s'.bytes ∧ v.length = s'.length

/-- The object holds the store `st`; ids other than the session id. -/
structure StoreInv (k : KeyInfo) (sid skey nonce : List Byte) (st : Store) (l : SMap) : Prop where
  heap : HeapWF k.heap
  small : ∀ s ∈ k.heap, s.length + 128 < 2 ^ 64
  valid : Valid k.heap l
  map : SInv (some (compareAt k.heap)) k.map l
  idAt : 1 ≤ k.id ∧ k.id ≤ k.heap.length ∧ (stringAt k.heap k.id).bytes = sid
  nonceOK : NonceOK k.nonce
  nonceEq : k.nonce.bytes = nonce
  cipherNonce : k.cipher.nonce.WF ∧ k.cipher.nonce.length = 16
  session : ∃ v, boundTo k.heap l sid = some v ∧ (stringAt k.heap v).bytes = skey
  store : ∀ id, id ≠ sid → match st id with
    | none => boundTo k.heap l id = none
    | some key => ∃ v, boundTo k.heap l id = some v ∧ Sealed skey nonce key (stringAt k.heap v)

theorem append_inv {k : KeyInfo} {sid skey nonce : List Byte} {st : Store} {l : SMap} (h : StoreInv k sid skey nonce st l) (ext : List StringInfo)
    (hw : HeapWF ext) (hs : ∀ s ∈ ext, s.length + 128 < 2 ^ 64) : StoreInv { k with heap := k.heap ++ ext } sid skey nonce st l := by
  have bt := fun id => boundTo_append ext h.valid id
  have at' : ∀ id v, boundTo k.heap l id = some v → stringAt (k.heap ++ ext) v = stringAt k.heap v := by
    intro id v hv
    obtain ⟨b, hb, rfl⟩ := boundTo_mem hv
    exact stringAt_append ext (h.valid b hb).2.1 (h.valid b hb).2.2
  refine ⟨?_, ?_, ?_, sinv_append ext h.valid h.map, ?_, h.nonceOK, h.nonceEq, h.cipherNonce, ?_, ?_⟩
  · intro s hs
    rcases List.mem_append.mp hs with hs | hs
    · exact h.heap s hs
    · exact hw s hs
  · intro s hx
    rcases List.mem_append.mp hx with hx | hx
    · exact h.small s hx
    · exact hs s hx
  · intro b hb
    have := h.valid b hb
    simp only [List.length_append]
    omega
  · refine ⟨h.idAt.1, by simp only [List.length_append]; have := h.idAt.2.1; omega, ?_⟩
    show (stringAt (k.heap ++ ext) k.id).bytes = sid
    rw [stringAt_append ext h.idAt.1 h.idAt.2.1]
    exact h.idAt.2.2
  · obtain ⟨v, h1, h2⟩ := h.session
    exact ⟨v, by show boundTo (k.heap ++ ext) l sid = some v; rw [bt]; exact h1, by
      show (stringAt (k.heap ++ ext) v).bytes = skey; rw [at' sid v h1]; exact h2⟩
  · intro id hid
    have := h.store id hid
    show match st id with | none => boundTo (k.heap ++ ext) l id = none | some key => ∃ v, boundTo (k.heap ++ ext) l id = some v ∧ _
    rw [bt]
    cases hst : st id with
    | none => rw [hst] at this; exact this
    | some key =>
      rw [hst] at this
      obtain ⟨v, h1, h2⟩ := this
      exact ⟨v, h1, by show Sealed skey nonce key (stringAt (k.heap ++ ext) v); rw [at' id v h1]; exact h2⟩

/-- The object after the session key was looked up. -/
structure Prepared (k k' : KeyInfo) (skey nonce : List Byte) (random : Nat → Byte) : Prop where
  heap : k'.heap = k.heap
  cipher : k'.cipher = storeCipher skey k'.cipher.nonce random
  wf : k'.cipher.nonce.WF
  length : k'.cipher.nonce.length = 16
  bytes : k'.cipher.nonce.bytes = nonce

theorem sessionCipher_spec {k : KeyInfo} {sid skey nonce : List Byte} {st : Store} {l : SMap} (h : StoreInv k sid skey nonce st l)
    (hl : l.length < 2 ^ 64) (random : Nat → Byte) :
    ∃ k', sessionCipher k random = .ok k' ∧ StoreInv k' sid skey nonce st l ∧ Prepared k k' skey nonce random := by
  obtain ⟨g, h1, h2, h3, _⟩ := getFromSplay_spec (compareAt_order h.heap) h.map hl k.id
  obtain ⟨v, h4, h5⟩ := h.session
  rw [get_boundTo h.heap, h.idAt.2.2, h4] at h2
  have h2 : g.1 = v := h2
  obtain ⟨b, hb, hbv⟩ := boundTo_mem h4
  have hv := (h.valid b hb).2.1
  have hr : (storeCipher skey k.cipher.nonce random).Ready := storeCipher_ready skey random h.cipherNonce.1 h.cipherNonce.2
  obtain ⟨c, h6, h7, h8, h9⟩ := (Props.C68_ready (aesCipher []) (by decide) (by decide) (Props.aes_sized_invertible _).1).2.1 _ hr k.nonce h.nonceOK.wf
  have hc : c = storeCipher skey c.nonce random := by
    unfold setCipherNonce at h6
    cases hq : setStringInfo (storeCipher skey k.cipher.nonce random).nonce k.nonce with
    | ok n => rw [hq, Res.ok_bind] at h6; injection h6 with h6; rw [← h6]; rfl
    | ub => rw [hq] at h6; cases h6
    | fatal => rw [hq] at h6; cases h6
  have lb : k.nonce.bytes.length = 16 := by rw [StringInfo.bytes_length h.nonceOK.wf, h.nonceOK.length]
  have hlen : c.nonce.length = 16 := by have := h7.nonceLength; rw [h8] at this; exact this
  have hbytes : c.nonce.bytes = nonce := by
    rw [h9, ← h.nonceEq]
    show k.nonce.bytes.take 16 ++ List.replicate (16 - k.nonce.length) 0 = _
    rw [h.nonceOK.length, List.take_of_length_le (by omega)]
    simp
  have key : sessionCipher k random = .ok { k with map := g.2, cipher := c } := by
    unfold sessionCipher
    rw [h1, Res.ok_bind, if_neg (by rw [h2]; omega), h2, h5]
    have : setCipherNonce { k.cipher with cipher := aesCipher skey, random := random } k.nonce = .ok c := h6
    rw [this, Res.ok_bind]
  exact ⟨_, key, ⟨h.heap, h.small, h.valid, h3, h.idAt, h.nonceOK, h.nonceEq, ⟨h7.nonce, hlen⟩, h.session, h.store⟩, rfl, hc, h7.nonce, hlen, hbytes⟩

/-- Enciphering in the store does not fail. -/
theorem store_encipher {skey : List Byte} {n : StringInfo} {random : Nat → Byte} (hn : n.WF) (hl : n.length = 16)
    (hroom : beNat n.bytes + 2 ^ 64 ≤ 256 ^ 16) {s : StringInfo} (hs : s.WF) (hsl : s.length + 128 < 2 ^ 64) :
    ∃ s', encipherCipher .ctr (storeCipher skey n random) s = .ok s' ∧ s'.WF ∧ s'.length = s.length := by
  have hr := storeCipher_ready skey random hn hl
  rcases Props.C29_counters _ hr s hs with ⟨h, _⟩ | ⟨s', h1, h2, _⟩
  · have h : 256 ^ 16 ≤ beNat n.bytes + (s.length / 16 + 1) := h
    omega
  · refine ⟨s', h1, ?_, h2⟩
    obtain ⟨e1, e2, _⟩ := encipher_byte .ctr _ hr s s' hs h1
    show s'.length + 128 ≤ s'.datum.length
    have : s.length + 128 ≤ s.datum.length := hs
    omega

/-- Deciphering a sealed key gives the key. -/
theorem sealed_open {skey nonce key : List Byte} {v t : StringInfo} (h : Sealed skey nonce key v) {n : StringInfo} {random : Nat → Byte}
    (hn : n.WF) (hl : n.length = 16) (hb : n.bytes = nonce) (ht : t.WF) (htl : t.length = v.length) (htb : t.bytes = v.bytes) :
    ∃ r, decipherCipher .ctr (storeCipher skey n random) t = .ok r ∧ r.bytes = key := by
  obtain ⟨n', random', s, s', a1, a2, a3, a4, a5, a6, a7, a8⟩ := h
  have hr := storeCipher_ready skey random' a1 a2
  -- the cipher reads the nonce's bytes only
  have hc : decipherCipher .ctr (storeCipher skey n random) t = decipherCipher .ctr (storeCipher skey n' random') t := by
    have : loadNonce (storeCipher skey n random) = loadNonce (storeCipher skey n' random') := by
      unfold loadNonce
      show (if _ then _ else rdN n.datum 0 16) = if _ then _ else rdN n'.datum 0 16
      have w1 : n.length + 128 ≤ n.datum.length := hn
      have w2 : n'.length + 128 ≤ n'.datum.length := a1
      rw [rdN_ok (by omega), rdN_ok (by omega)]
      have e1 : n.bytes = n.datum.take 16 := by unfold StringInfo.bytes; rw [hl]
      have e2 : n'.bytes = n'.datum.take 16 := by unfold StringInfo.bytes; rw [a2]
      simp only [List.drop_zero]
      rw [← e1, ← e2, hb, a3]
      rfl
    unfold decipherCipher
    simp only [this]
    rfl
  rw [hc]
  obtain ⟨r, h1, h2, h3⟩ := Props.C27_stream_round_trip .ctr (.inr (.inl rfl)) _ (storeCipher skey n' random') hr
    (Props.aes_sized_invertible skey).2 rfl rfl s s' t a4 a6 ht (by rw [htl, a8]) (by rw [htb, a7])
  exact ⟨r, h1, by rw [h3, a5]⟩

theorem setKeyInfo_spec {k : KeyInfo} {sid skey nonce : List Byte} {st : Store} {l : SMap} (h : StoreInv k sid skey nonce st l)
    (hl : l.length < 2 ^ 64) (random : Nat → Byte) {id key : StringInfo} (hid : id.WF) (hkey : key.WF) (hidl : id.length + 128 < 2 ^ 64)
    (hkeyl : key.length + 128 < 2 ^ 64) (hne : id.bytes ≠ sid) :
    ∃ k' l', setKeyInfo k random id key = .ok k' ∧ l'.length ≤ l.length + 1 ∧
      StoreInv k' sid skey nonce (fun x => if x = id.bytes then some key.bytes else st x) l' := by
  have hsz : sizeMax = 2 ^ 64 := by unfold sizeMax; rfl
  have hmc : maxCipherBlocksize = 128 := rfl
  obtain ⟨k1, h1, h2, h3⟩ := sessionCipher_spec h hl random
  obtain ⟨c, h4, h5, h6, h7, _⟩ := Props.C03_clone key hkey (by omega)
  obtain ⟨i, g4, g5, g6, g7, _⟩ := Props.C03_clone id hid (by omega)
  obtain ⟨e, f1, f2, f3⟩ := store_encipher (skey := skey) (random := random) h3.wf h3.length
    (by rw [h3.bytes, ← h.nonceEq]; exact h.nonceOK.room) h5 (by omega)
  have hh : HeapWF (k1.heap ++ [i, e]) := by
    intro s hs
    rcases List.mem_append.mp hs with hs | hs
    · exact h2.heap s hs
    · simp only [List.mem_cons, List.not_mem_nil, or_false] at hs
      rcases hs with rfl | rfl
      · exact g5
      · exact f2
  have ha := append_inv h2 [i, e] (fun s hs => hh s (List.mem_append_right _ hs)) (by
    intro s hs
    simp only [List.mem_cons, List.not_mem_nil, or_false] at hs
    rcases hs with rfl | rfl
    · omega
    · omega)
  obtain ⟨m, q1, q2, _⟩ := addValue_spec (compareAt_order hh) ha.map hl (k1.heap.length + 1) (k1.heap.length + 2)
  have q1 : addValue (some (compareAt (k1.heap ++ [i, e]))) k1.map (k1.heap.length + 1) (k1.heap.length + 2) = .ok m := q1
  have hat1 : stringAt (k1.heap ++ [i, e]) (k1.heap.length + 1) = i := by
    unfold stringAt; simp
  have hat2 : stringAt (k1.heap ++ [i, e]) (k1.heap.length + 2) = e := by
    unfold stringAt
    rw [show k1.heap.length + 2 - 1 = k1.heap.length + 1 by omega, List.getD_eq_getElem?_getD, List.getElem?_append_right (by omega),
      show k1.heap.length + 1 - k1.heap.length = 1 by omega]
    rfl
  have hbound := fun x => boundTo_put hh l (k1.heap.length + 1) (k1.heap.length + 2) x
  simp only [hat1, g7] at hbound
  refine ⟨{ k1 with map := m, heap := k1.heap ++ [i, e] }, SMap.put (cmpKeys (some (compareAt (k1.heap ++ [i, e])))) l (k1.heap.length + 1) (k1.heap.length + 2),
    ?_, Props.step_length (.put _ _), ?_⟩
  · unfold setKeyInfo
    rw [h1, Res.ok_bind, h4, Res.ok_bind, h3.cipher, f1, Res.ok_bind, g4, Res.ok_bind]
    simp only []
    rw [q1, Res.ok_bind, ← h3.cipher]
  · refine ⟨hh, ha.small, ?_, q2, ha.idAt, h2.nonceOK, h2.nonceEq, h2.cipherNonce, ?_, ?_⟩
    · intro b hb
      unfold SMap.put at hb
      rcases List.mem_append.mp hb with hb | hb
      · exact ha.valid b (List.mem_filter.mp hb).1
      · rcases List.mem_cons.mp hb with rfl | hb
        · simp only [List.length_append, List.length_cons, List.length_nil]; omega
        · exact ha.valid b (List.mem_filter.mp hb).1
    · obtain ⟨v, s1, s2⟩ := ha.session
      exact ⟨v, by rw [hbound, if_neg (fun e => hne e.symm)]; exact s1, s2⟩
    · intro x hx
      show match (if x = id.bytes then some key.bytes else st x) with | none => _ | some key => _
      rw [hbound]
      by_cases hxi : x = id.bytes
      · rw [if_pos hxi, if_pos hxi]
        refine ⟨_, rfl, ?_⟩
        rw [hat2]
        exact ⟨k1.cipher.nonce, random, c, e, h3.wf, h3.length, h3.bytes, h5, h7, f1, rfl, rfl⟩
      · rw [if_neg hxi, if_neg hxi]
        exact ha.store x hx

theorem getKeyInfo_spec {k : KeyInfo} {sid skey nonce : List Byte} {st : Store} {l : SMap} (h : StoreInv k sid skey nonce st l)
    (hl : l.length < 2 ^ 64) (random : Nat → Byte) {id : StringInfo} (hid : id.WF) (hidl : id.length + 128 < 2 ^ 64) (hne : id.bytes ≠ sid) :
    match st id.bytes with
    | some key => ∃ r k', getKeyInfo k random id = .ok (r, k') ∧ r.bytes = key ∧ StoreInv k' sid skey nonce st l
    | none => getKeyInfo k random id = .fatal := by
  have hsz : sizeMax = 2 ^ 64 := by unfold sizeMax; rfl
  have hmc : maxCipherBlocksize = 128 := rfl
  have ha := append_inv h [id] (fun s hs => by rw [List.mem_singleton] at hs; rw [hs]; exact hid)
    (fun s hs => by rw [List.mem_singleton] at hs; rw [hs]; exact hidl)
  obtain ⟨k1, h1, h2, h3⟩ := sessionCipher_spec ha hl random
  obtain ⟨g, h4, h5, h6, _⟩ := getFromSplay_spec (compareAt_order h2.heap) h2.map hl k1.heap.length
  have hat : stringAt k1.heap k1.heap.length = id := by
    rw [h3.heap]
    unfold stringAt
    simp
  rw [get_boundTo h2.heap, hat] at h5
  have hs := h2.store id.bytes hne
  cases hst : st id.bytes with
  | none =>
    rw [hst] at hs
    have hs : boundTo k1.heap l id.bytes = none := hs
    simp only []
    unfold getKeyInfo
    rw [h1, Res.ok_bind, h4, Res.ok_bind, if_pos (by rw [h5, hs]; rfl)]
  | some key =>
    rw [hst] at hs
    obtain ⟨v, hv, hsealed⟩ := hs
    have h5 : g.1 = v := by rw [h5, hv]; rfl
    obtain ⟨b, hb, hbv⟩ := boundTo_mem hv
    have hvalid := (h2.valid b hb).2
    have hmem : stringAt k1.heap v ∈ k1.heap := by
      unfold stringAt
      rw [List.getD_eq_getElem?_getD, List.getElem?_eq_getElem (by omega)]
      exact List.getElem_mem ..
    obtain ⟨t, t1, t2, t3, t4, _⟩ := Props.C03_clone (stringAt k1.heap v) (stringAt_wf h2.heap v) (by have := h2.small _ hmem; omega)
    obtain ⟨r, r1, r2⟩ := sealed_open (random := random) hsealed h3.wf h3.length h3.bytes t2 t3 t4
    simp only []
    refine ⟨r, { k1 with map := g.2 }, ?_, r2, ⟨h2.heap, h2.small, h2.valid, h6, h2.idAt, h2.nonceOK, h2.nonceEq, h2.cipherNonce, h2.session, h2.store⟩⟩
    unfold getKeyInfo
    rw [h1, Res.ok_bind, h4, Res.ok_bind, if_neg (by rw [h5]; omega), h5, t1, Res.ok_bind, h3.cipher, r1, Res.ok_bind, ← h3.cipher]

end Wizard

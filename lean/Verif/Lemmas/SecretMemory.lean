import Verif.Spec.SecretMemory

/-! Lemmas about blocks of memory that are acquired, replaced and given up. -/
namespace Wizard.Lemmas.SecretMemory
open Wizard Wizard.Spec.SecretMemory

/-- Blocks known before keep what is in them. -/
def Grew (m m' : Mem) : Prop := m.next ≤ m'.next ∧ ∀ b, b < m.next → m'.data b = m.data b

theorem grew_refl (m : Mem) : Grew m m := ⟨Nat.le_refl _, fun _ _ => rfl⟩

theorem grew_trans {a b c : Mem} (h : Grew a b) (h' : Grew b c) : Grew a c :=
  ⟨Nat.le_trans h.1 h'.1, fun x hx => (h'.2 x (Nat.lt_of_lt_of_le hx h.1)).trans (h.2 x hx)⟩

theorem acquire_sound (bytes : List Byte) {m : Mem} (h : Sound m) : Sound (memAcquire bytes m).2 := by
  constructor
  · exact List.nodup_cons.2 ⟨fun hm => absurd (h.2 _ hm) (Nat.lt_irrefl _), h.1⟩
  · intro b hb
    rcases List.mem_cons.1 hb with rfl | hb
    · exact Nat.lt_succ_self _
    · exact Nat.lt_succ_of_lt (h.2 b hb)

theorem acquire_grew (bytes : List Byte) (m : Mem) : Grew m (memAcquire bytes m).2 :=
  ⟨Nat.le_succ _, fun _ hb => if_neg (Nat.ne_of_lt hb)⟩

/-- An object was acquired. -/
structure Got (blocks : List Nat) (m m' : Mem) : Prop where
  perm : m'.live.Perm (blocks ++ m.live)
  sound : Sound m'
  grew : Grew m m'
  new : ∀ b ∈ blocks, m.next ≤ b

theorem got_acquire (bytes : List Byte) {m : Mem} (h : Sound m) : Got [(memAcquire bytes m).1] m (memAcquire bytes m).2 :=
  ⟨List.Perm.refl _, acquire_sound bytes h, acquire_grew bytes m, fun b hb => by rw [List.mem_singleton.1 hb]; exact Nat.le_refl _⟩

theorem got_trans {x y z : List Nat} {a b c : Mem} (h : Got x a b) (h' : Got y b c) (hz : z.Perm (y ++ x)) : Got z a c := by
  refine ⟨h'.perm.trans (((List.Perm.append_left y h.perm).trans (by rw [← List.append_assoc])).trans (hz.symm.append_right _)), h'.sound, grew_trans h.grew h'.grew, ?_⟩
  intro e he
  rcases List.mem_append.1 (hz.mem_iff.1 he) with he | he
  · exact Nat.le_trans h.grew.1 (h'.new e he)
  · exact h.new e he

theorem got_str (bytes : List Byte) {m : Mem} (h : Sound m) : Got (acquireStr bytes m).1.order m (acquireStr bytes m).2 := by
  have h1 := got_acquire [] h
  exact got_trans h1 (got_acquire bytes h1.sound) (List.Perm.refl _)

theorem str_data (bytes : List Byte) (m : Mem) : (acquireStr bytes m).2.data (acquireStr bytes m).1.datum = bytes := if_pos rfl

theorem got_sha {m : Mem} (h : Sound m) : Got (acquireShaObj m).1.order m (acquireShaObj m).2 := by
  have h1 := got_acquire [] h
  have h2 := got_str [] h1.sound
  have h3 := got_str [] h2.sound
  have h4 := got_acquire [] h3.sound
  refine got_trans (got_trans (got_trans h1 h2 (List.Perm.refl _)) h3 (List.Perm.refl _)) h4 ?_
  rw [List.perm_iff_count]; intro a; simp only [ShaObj.order, acquireShaObj, List.count_append]; omega

theorem got_hash {m : Mem} (h : Sound m) : Got (acquireHashObj m).1.order m (acquireHashObj m).2 := by
  have h1 := got_acquire [] h
  have h2 := got_sha h1.sound
  have h3 := got_str [] h2.sound
  refine got_trans (got_trans h1 h2 (List.Perm.refl _)) h3 ?_
  rw [List.perm_iff_count]; intro a; simp only [HashObj.order, acquireHashObj, List.count_append]; omega

theorem got_hmac {m : Mem} (h : Sound m) : Got (acquireHmacObj m).1.order m (acquireHmacObj m).2 := by
  have h1 := got_acquire [] h
  have h2 := got_hash h1.sound
  have h3 := got_str [] h2.sound
  have h4 := got_str [] h3.sound
  have h5 := got_str [] h4.sound
  refine got_trans (got_trans (got_trans (got_trans h1 h2 (List.Perm.refl _)) h3 (List.Perm.refl _)) h4 (List.Perm.refl _)) h5 ?_
  rw [List.perm_iff_count]; intro a; simp only [HmacObj.order, acquireHmacObj, List.count_append]; omega

theorem got_random (seed : List Byte) {m : Mem} (h : Sound m) : Got (acquireRandomObj seed m).1.order m (acquireRandomObj seed m).2 := by
  have h1 := got_acquire seed h
  have h2 := got_hmac h1.sound
  have h3 := got_str [] h2.sound
  have h4 := got_str [] h3.sound
  have h5 := got_acquire [] h4.sound
  refine got_trans (got_trans (got_trans (got_trans h1 h2 (List.Perm.refl _)) h3 (List.Perm.refl _)) h4 (List.Perm.refl _)) h5 ?_
  rw [List.perm_iff_count]; intro a; simp only [RandomObj.order, acquireRandomObj, List.count_append]; omega

theorem got_cipher {m : Mem} (h : Sound m) : Got (acquireCipher m).1.order m (acquireCipher m).2 := by
  have h1 := got_acquire [] h
  have h2 := got_acquire [] h1.sound
  have h3 := got_str [] h2.sound
  have h4 := got_acquire [] h3.sound
  have h5 := got_acquire [] h4.sound
  have h6 := got_random [] h5.sound
  have h7 := got_str [] h6.sound
  refine got_trans (got_trans (got_trans (got_trans (got_trans (got_trans h1 h2 (List.Perm.refl _)) h3 (List.Perm.refl _)) h4 (List.Perm.refl _)) h5 (List.Perm.refl _)) h6
    (List.Perm.refl _)) h7 ?_
  rw [List.perm_iff_count]; intro a
  simp only [CipherObj.order, acquireCipher, List.count_append, List.count_cons, List.count_nil]; omega

theorem got_ring (path : Option (List Byte)) {m : Mem} (h : Sound m) : Got (acquireRing path m).1.order m (acquireRing path m).2 := by
  cases path with
  | none => exact got_acquire [] h
  | some p =>
    have h1 := got_acquire [] h
    exact got_trans h1 (got_acquire p h1.sound) (List.Perm.refl _)

theorem got_secret (path : Option (List Byte)) (nonce : List Byte) {m : Mem} (h : Sound m) : Got (acquireSecret path nonce m).1.order m (acquireSecret path nonce m).2 := by
  have h1 := got_acquire [] h
  have h2 := got_ring path h1.sound
  have h3 := got_cipher h2.sound
  have h4 := got_str nonce h3.sound
  have h5 := got_hmac h4.sound
  have h6 := got_random [] h5.sound
  refine got_trans (got_trans (got_trans (got_trans (got_trans h1 h2 (List.Perm.refl _)) h3 (List.Perm.refl _)) h4 (List.Perm.refl _)) h5 (List.Perm.refl _)) h6 ?_
  rw [List.perm_iff_count]; intro a; simp only [SecretObj.order, acquireSecret, strOrder, List.count_append, List.count_nil]; omega

theorem relinquish_all (bs rest : List Nat) (m : Mem) (hs : Sound m) (hp : m.live.Perm (bs ++ rest)) :
    ∃ m', memRelinquishAll bs m = .ok m' ∧ m'.live.Perm rest ∧ Sound m' ∧ m'.next = m.next ∧ m'.data = m.data := by
  induction bs generalizing m with
  | nil => exact ⟨m, rfl, hp, hs, rfl, rfl⟩
  | cons b bs ih =>
    have hb : b ∈ m.live := hp.mem_iff.2 List.mem_cons_self
    have hp' : (m.live.erase b).Perm (bs ++ rest) := by
      have := hp.erase b
      rwa [List.cons_append, List.erase_cons_head] at this
    obtain ⟨m', h1, h2⟩ := ih { m with live := m.live.erase b } ⟨hs.1.erase b, fun c hc => hs.2 c (List.mem_of_mem_erase hc)⟩ hp'
    refine ⟨m', ?_, h2⟩
    rw [memRelinquishAll, memRelinquish, if_pos hb]
    exact h1

/-- A string was put in the place of another one. -/
structure Put (rest : List Nat) (bytes : List Byte) (m : Mem) (r : Option StrObj × Mem) : Prop where
  perm : r.2.live.Perm (strOrder r.1 ++ rest)
  sound : Sound r.2
  grew : Grew m r.2
  some : ∃ s, r.1 = some s ∧ r.2.data s.datum = bytes ∧ m.next ≤ s.datum ∧ s.datum < r.2.next

theorem put_acquire (rest : List Nat) (bytes : List Byte) (m m1 : Mem) (hl : m1.live.Perm rest) (hs : Sound m1) (hn : m1.next = m.next) (hd : m1.data = m.data) :
    Put rest bytes m (some (acquireStr bytes m1).1, (acquireStr bytes m1).2) := by
  have h := got_str bytes hs
  refine ⟨h.perm.trans (List.Perm.append_left _ hl), h.sound, ⟨hn ▸ h.grew.1, fun b hb => (h.grew.2 b (hn ▸ hb)).trans (by rw [hd])⟩, _, rfl, str_data bytes m1, ?_, ?_⟩
  · rw [← hn]; exact h.new _ List.mem_cons_self
  · exact h.sound.2 _ (h.perm.mem_iff.2 List.mem_cons_self)

theorem renew_put (field : Option StrObj) (bytes : List Byte) (rest : List Nat) (m : Mem) (hs : Sound m) (hp : m.live.Perm (strOrder field ++ rest)) :
    ∃ r, renewStr field bytes m = .ok r ∧ Put rest bytes m r := by
  obtain ⟨m1, h1, h2, h3, h4, h5⟩ := relinquish_all _ rest m hs hp
  refine ⟨_, ?_, put_acquire rest bytes m m1 h2 h3 h4 h5⟩
  rw [renewStr, h1]; rfl

theorem clone_ok (s : StrObj) (m : Mem) (ha : s.self ∈ m.live) (hb : s.datum ∈ m.live) : cloneStr (some s) m = .ok (acquireStr (m.data s.datum) m) := by
  simp only [cloneStr, memRead, if_pos ha, if_pos hb]; rfl

theorem replace_put (field : Option StrObj) (s : StrObj) (rest : List Nat) (m : Mem) (hs : Sound m) (hp : m.live.Perm (strOrder field ++ rest)) (ha : s.self ∈ rest)
    (hb : s.datum ∈ rest) : ∃ r, replaceStr field (some s) m = .ok r ∧ Put rest (m.data s.datum) m r := by
  obtain ⟨m1, h1, h2, h3, h4, h5⟩ := relinquish_all _ rest m hs hp
  refine ⟨_, ?_, put_acquire rest (m.data s.datum) m m1 h2 h3 h4 h5⟩
  rw [replaceStr, h1]
  show (cloneStr (some s) m1).bind _ = _
  rw [clone_ok s m1 (h2.mem_iff.2 ha) (h2.mem_iff.2 hb), h5]
  rfl

theorem nodup_of_perm {m : Mem} (hs : Sound m) {l : List Nat} (hp : m.live.Perm l) : l.Nodup := hp.nodup_iff.1 hs.1

/-- A field that is given to itself is read after it was given up. -/
theorem replace_self (s : StrObj) (rest : List Nat) (m : Mem) (hs : Sound m) (hp : m.live.Perm (s.order ++ rest)) : replaceStr (some s) (some s) m = .ub := by
  obtain ⟨m1, h1, h2, h3, h4, h5⟩ := relinquish_all _ rest m hs hp
  have hnd := nodup_of_perm hs hp
  have hself : s.self ∉ m1.live := fun h => by
    have h' := h2.mem_iff.1 h
    exact (List.nodup_append.1 hnd).2.2 _ (by simp [StrObj.order]) _ h' rfl
  show (memRelinquishAll s.order m).bind _ = _
  rw [h1]
  show (cloneStr (some s) m1).bind _ = _
  simp only [cloneStr, memRead, if_neg hself]
  rfl

end Wizard.Lemmas.SecretMemory

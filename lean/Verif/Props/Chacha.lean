import Verif.Lemmas.Chacha
/-! C26, C66, C67: the ChaCha cipher. -/
namespace Wizard.Props
open Wizard Wizard.Spec

theorem chachaStream_length (k : ChachaInfo) : (chachaStream k).length = 64 := by
  rw [chachaStream_eq]; simp [Chacha.keystream]

/-- **C26** In every state (any key of any length set, with or without nonce), deciphering an
enciphered block gives the block back; so does enciphering twice. -/
theorem C26_chacha_involution (k : ChachaInfo) (b : List Byte) (h : b.length = 64) :
    decipherChachaBlock k (encipherChachaBlock k b) = b ∧
    encipherChachaBlock k (encipherChachaBlock k b) = b ∧
    (encipherChachaBlock k b).length = 64 := by
  have hl : (encipherChachaBlock k b).length = 64 := by
    rw [encipherChacha_xor k b h, List.length_zipWith, h, chachaStream_length]; rfl
  have hi : encipherChachaBlock k (encipherChachaBlock k b) = b := by
    rw [encipherChacha_xor k _ hl, encipherChacha_xor k b h]
    apply List.ext_getElem
    · simp [h, chachaStream_length]
    · intro i h1 h2
      simp [BitVec.xor_assoc]
  exact ⟨hi, hi, hl⟩

theorem chacha_initial (cs : String) (key counter nonce : List Byte) :
    chachaState ⟨pushChachaWord (cs.toList.map asc) 0, pushChachaWord (cs.toList.map asc) 4,
      pushChachaWord (cs.toList.map asc) 8, pushChachaWord (cs.toList.map asc) 12,
      pushChachaWord key 0, pushChachaWord key 4, pushChachaWord key 8, pushChachaWord key 12,
      pushChachaWord key 16, pushChachaWord key 20, pushChachaWord key 24, pushChachaWord key 28,
      pushChachaWord counter 0, pushChachaWord counter 4, pushChachaWord nonce 0, pushChachaWord nonce 4⟩ =
    Chacha.initial cs key counter nonce := by
  generalize hc : cs.toList.map asc = consts
  have e : Chacha.initial cs key counter nonce = fun i : Fin 16 =>
      if i.val < 4 then pushChachaWord consts (4 * i.val)
      else if i.val < 12 then pushChachaWord key (4 * (i.val - 4))
      else if i.val < 14 then pushChachaWord counter (4 * (i.val - 12))
      else pushChachaWord nonce (4 * (i.val - 14)) := by
    funext i
    simp only [Chacha.initial, word_eq, hc]
  rw [e]
  funext i
  revert i
  apply forall16 <;> rfl

theorem counter_words (counter : Option (List Byte)) :
    (match counter with | none => 0 | some c => pushChachaWord c 0) = pushChachaWord (counter.getD []) 0 ∧
    (match counter with | none => 0 | some c => pushChachaWord c 4) = pushChachaWord (counter.getD []) 4 := by
  have e : ∀ j, pushChachaWord [] j = 0 := fun j => push_zero 0 j
  cases counter with
  | none => exact ⟨(e 0).symm, (e 4).symm⟩
  | some c => exact ⟨rfl, rfl⟩

theorem setChachaKey_256 (k : ChachaInfo) (key : List Byte) (hk : key.length = 32) :
    setChachaKey k key = ⟨pushChachaWord chachaSigma 0, pushChachaWord chachaSigma 4,
      pushChachaWord chachaSigma 8, pushChachaWord chachaSigma 12, pushChachaWord key 0, pushChachaWord key 4,
      pushChachaWord key 8, pushChachaWord key 12, pushChachaWord (key.drop 16) 0,
      pushChachaWord (key.drop 16) 4, pushChachaWord (key.drop 16) 8, pushChachaWord (key.drop 16) 12,
      0, 0, 0, 0⟩ := by
  generalize hsg : chachaSigma = sg
  unfold setChachaKey
  rw [hsg, hk]
  generalize chachaTau = tt
  rfl

theorem setChachaKey_128 (k : ChachaInfo) (key : List Byte) (hk : key.length = 16) :
    setChachaKey k key = ⟨pushChachaWord chachaTau 0, pushChachaWord chachaTau 4,
      pushChachaWord chachaTau 8, pushChachaWord chachaTau 12, pushChachaWord key 0, pushChachaWord key 4,
      pushChachaWord key 8, pushChachaWord key 12, pushChachaWord key 0, pushChachaWord key 4,
      pushChachaWord key 8, pushChachaWord key 12, 0, 0, 0, 0⟩ := by
  generalize hsg : chachaTau = sg
  unfold setChachaKey
  rw [hsg, hk]
  generalize chachaSigma = tt
  rfl

theorem chacha_state_words (cs : String) (consts key datum nonce : List Byte) (counter : Option (List Byte))
    (hc : consts = cs.toList.map asc) (key' : List Byte)
    (h0 : ∀ j, j < 4 → pushChachaWord key' (4 * j) = pushChachaWord key (4 * j))
    (h1 : ∀ j, j < 4 → pushChachaWord key' (16 + 4 * j) = pushChachaWord datum (4 * j)) :
    chachaState (setChachaNonce ⟨pushChachaWord consts 0, pushChachaWord consts 4,
      pushChachaWord consts 8, pushChachaWord consts 12, pushChachaWord key 0, pushChachaWord key 4,
      pushChachaWord key 8, pushChachaWord key 12, pushChachaWord datum 0, pushChachaWord datum 4,
      pushChachaWord datum 8, pushChachaWord datum 12, 0, 0, 0, 0⟩ nonce counter) =
    Chacha.initial cs key' (counter.getD []) nonce := by
  rw [← chacha_initial, ← hc]
  refine congrArg chachaState ?_
  have a0 := h0 0 (by decide); have a1 := h0 1 (by decide); have a2 := h0 2 (by decide); have a3 := h0 3 (by decide)
  have b0 := h1 0 (by decide); have b1 := h1 1 (by decide); have b2 := h1 2 (by decide); have b3 := h1 3 (by decide)
  simp only [Nat.reduceMul, Nat.reduceAdd] at a0 a1 a2 a3 b0 b1 b2 b3
  rw [a0, a1, a2, a3, b0, b1, b2, b3, ← (counter_words counter).1, ← (counter_words counter).2]
  rfl

theorem chacha_state_256 (k : ChachaInfo) (key nonce : List Byte) (counter : Option (List Byte))
    (hk : key.length = 32) :
    chachaState (setChachaNonce (setChachaKey k key) nonce counter) =
      Chacha.initial256 key (counter.getD []) nonce := by
  have d : ∀ j, pushChachaWord (key.drop 16) j = pushChachaWord key (16 + j) := by
    intro j; simp [pushChachaWord, List.getD_eq_getElem?_getD, List.getElem?_drop, Nat.add_assoc]
  rw [setChachaKey_256 k key hk, Chacha.initial256]
  exact chacha_state_words _ _ key (key.drop 16) nonce counter rfl key (fun _ _ => rfl) fun j _ => (d _).symm

theorem chacha_state_128 (k : ChachaInfo) (key nonce : List Byte) (counter : Option (List Byte))
    (hk : key.length = 16) :
    chachaState (setChachaNonce (setChachaKey k key) nonce counter) =
      Chacha.initial128 key (counter.getD []) nonce := by
  have a : ∀ j, j + 3 < 16 → pushChachaWord (key ++ key) j = pushChachaWord key j := by
    intro j hj
    simp only [pushChachaWord, List.getD_eq_getElem?_getD]
    rw [List.getElem?_append_left (by omega), List.getElem?_append_left (by omega),
      List.getElem?_append_left (by omega), List.getElem?_append_left (by omega)]
  have b : ∀ j, pushChachaWord (key ++ key) (16 + j) = pushChachaWord key j := by
    intro j
    simp only [pushChachaWord, List.getD_eq_getElem?_getD]
    rw [List.getElem?_append_right (by omega), List.getElem?_append_right (by omega),
      List.getElem?_append_right (by omega), List.getElem?_append_right (by omega), hk]
    simp only [Nat.add_assoc, Nat.add_sub_cancel_left]
  rw [setChachaKey_128 k key hk, Chacha.initial128]
  exact chacha_state_words _ _ key key nonce counter rfl (key ++ key) (fun j hj => a _ (by omega)) fun j _ => b _

/-- **C66** After `SetChachaKey` with a 32-byte (16-byte) key and `SetChachaNonce`, whatever the state
before, a block is xored with the keystream block of published ChaCha20 for that key, counter and nonce;
a NULL counter is the counter 0. -/
theorem C66_chacha20 (k : ChachaInfo) (key nonce b : List Byte) (counter : Option (List Byte))
    (hb : b.length = 64) :
    (key.length = 32 →
      encipherChachaBlock (setChachaNonce (setChachaKey k key) nonce counter) b =
        List.zipWith (· ^^^ ·) b (Chacha.keystream (Chacha.initial256 key (counter.getD []) nonce))) ∧
    (key.length = 16 →
      encipherChachaBlock (setChachaNonce (setChachaKey k key) nonce counter) b =
        List.zipWith (· ^^^ ·) b (Chacha.keystream (Chacha.initial128 key (counter.getD []) nonce))) := by
  rw [encipherChacha_xor _ b hb, chachaStream_eq]
  exact ⟨fun h => by rw [chacha_state_256 k key nonce counter h],
    fun h => by rw [chacha_state_128 k key nonce counter h]⟩

/-- Setting a second nonce and counter (or a NULL counter) discards the first: the keystream is that
of the last `SetChachaNonce`, whatever blocks were processed before it. -/
theorem C66_last_nonce (k : ChachaInfo) (key nonce nonce' b : List Byte)
    (counter counter' : Option (List Byte)) (hb : b.length = 64) (hk : key.length = 32) :
    encipherChachaBlock
        (setChachaNonce (setChachaNonce (setChachaKey k key) nonce counter) nonce' counter') b =
      List.zipWith (· ^^^ ·) b (Chacha.keystream (Chacha.initial256 key (counter'.getD []) nonce')) := by
  have e : setChachaNonce (setChachaNonce (setChachaKey k key) nonce counter) nonce' counter' =
      setChachaNonce (setChachaKey k key) nonce' counter' := by
    cases counter' <;> rfl
  rw [e]
  exact (C66_chacha20 k key nonce' b counter' hb).1 hk

/-- Without `SetChachaNonce`, as the cipher interface uses it, counter and nonce are zero. -/
theorem C66_chacha20_no_nonce (k : ChachaInfo) (key b : List Byte) (hb : b.length = 64)
    (hk : key.length = 32) : encipherChachaBlock (setChachaKey k key) b =
      List.zipWith (· ^^^ ·) b (Chacha.keystream (Chacha.initial256 key [] [])) := by
  have : setChachaNonce (setChachaKey k key) [] none = setChachaKey k key := by
    have e : ∀ j, pushChachaWord [] j = 0 := fun j => push_zero 0 j
    simp only [setChachaNonce, e]
    rfl
  have h := (C66_chacha20 k key [] b none hb).1 hk
  rwa [this] at h

/-- Inputs that meet the hypotheses. -/
example : ((List.range 32).map (BitVec.ofNat 8)).length = 32 ∧ (List.replicate 64 (0 : Byte)).length = 64 := by
  decide

/-- **C67** (holds for keys of 16 bytes or more) The cipher after `SetChachaKey` depends only on the
key: it is the same whatever keys were set before. Missing: keys shorter than 16 bytes, where it is
false. -/
theorem C67_chacha_key_partial (k k' : ChachaInfo) (key : List Byte) (h : 16 ≤ key.length) :
    setChachaKey k key = setChachaKey k' key := by
  unfold setChachaKey
  simp only [if_pos (show key.length ≥ 4 by omega), if_pos (show key.length ≥ 8 by omega),
    if_pos (show key.length ≥ 12 by omega), if_pos (show key.length ≥ 16 by omega)]

/-- C67 is false for short keys: `SetChachaKey` with a key of fewer than four bytes leaves the 16-byte
key that was set before in force, so replacing a key by, say, an empty one changes nothing, and two
ciphers given the same short key encipher differently. -/
theorem C67_chacha_short_key_violated :
    (∀ (k : ChachaInfo) (old short : List Byte), old.length = 16 → short.length < 4 →
      setChachaKey (setChachaKey k old) short = setChachaKey k old) ∧
    ∃ (old short b : List Byte), old.length = 16 ∧ b.length = 64 ∧
      encipherChachaBlock (setChachaKey (setChachaKey acquireChachaInfo old) short) b ≠
        encipherChachaBlock (setChachaKey acquireChachaInfo short) b := by
  constructor
  · intro k old short ho hs
    unfold setChachaKey
    simp [ho, show ¬ (4 ≤ short.length) by omega, show ¬ (8 ≤ short.length) by omega,
      show ¬ (12 ≤ short.length) by omega, show ¬ (16 ≤ short.length) by omega,
      show ¬ (8 * short.length = 256) by omega]
  · exact ⟨List.replicate 16 1, [], List.replicate 64 0, rfl, by decide, by decide +kernel⟩

end Wizard.Props

import Verif.Model.Utf16
import Verif.Spec.Utf
import Verif.Lemmas.Mem
/-! C56: UTF-16 conversion. -/
namespace Wizard.Props
open Wizard Wizard.Spec.Utf

theorem bitLen_le : ∀ (n c : Nat), c < 2 ^ n → bitLen c ≤ n := by
  intro n
  induction n with
  | zero => intro c h; have : c = 0 := by simpa using h
            subst this; rw [bitLen]; simp
  | succ n ih =>
    intro c h
    rw [bitLen]
    split
    · omega
    · have := ih (c / 2) (by rw [Nat.pow_succ] at h; omega)
      omega

theorem lt_bitLen : ∀ (n c : Nat), 2 ^ n ≤ c → n < bitLen c := by
  intro n
  induction n with
  | zero => intro c h; rw [bitLen, if_neg (by simp at h; omega)]; omega
  | succ n ih =>
    intro c h
    have h2 : 0 < 2 ^ n := Nat.two_pow_pos n
    rw [Nat.pow_succ] at h
    rw [bitLen, if_neg (by omega)]
    have := ih (c / 2) (by omega)
    omega

/-- A memory with room at `j`: the bytes written there. -/
theorem wr_at (pre rest : List Byte) (b x : Byte) : wr (pre ++ x :: rest) pre.length b = .ok (pre ++ b :: rest) := by
  unfold wr
  rw [if_pos (by simp)]
  simp

theorem cont_byte (x : Nat) : BitVec.ofNat 8 (0x80 ||| (x &&& 0x3f)) = BitVec.ofNat 8 (0x80 + x % 64) := by
  have h : x &&& 0x3f = x % 64 := Nat.and_two_pow_sub_one_eq_mod x 6
  rw [h]
  have key : ∀ y < 64, BitVec.ofNat 8 (0x80 ||| y) = BitVec.ofNat 8 (0x80 + y) := by decide
  exact key _ (Nat.mod_lt _ (by decide))

theorem drop_cons_of_lt (l : List Byte) (n : Nat) (h : n < l.length) : ∃ x, l.drop n = x :: l.drop (n + 1) :=
  ⟨l[n], List.drop_eq_getElem_cons h⟩

theorem utf8Char_pos (c : Nat) : 0 < (utf8Char c).length ∧ (utf8Char c).length ≤ 4 := by
  unfold utf8Char
  split
  · simp
  · split
    · simp
    · split <;> simp

/-- Writing one code point. -/
theorem putUtf8_spec (c : Nat) (hc : c < 0x110000) (pre rest : List Byte) (hr : 4 ≤ rest.length) :
    putUtf8 c (pre ++ rest) pre.length = .ok ((pre ++ utf8Char c) ++ rest.drop (utf8Char c).length, (pre ++ utf8Char c).length) := by
  match rest, hr with
  | r0 :: r1 :: r2 :: r3 :: rest, _ =>
  unfold putUtf8 utf8Char
  have w1 : ∀ (b x y : Byte) (l : List Byte), wr (pre ++ b :: x :: l) (pre.length + 1) y = .ok (pre ++ b :: y :: l) := by
    intro b x y l
    have := wr_at (pre ++ [b]) l y x
    simpa using this
  have w2 : ∀ (b b' x y : Byte) (l : List Byte), wr (pre ++ b :: b' :: x :: l) (pre.length + 2) y = .ok (pre ++ b :: b' :: y :: l) := by
    intro b b' x y l
    have := wr_at (pre ++ [b, b']) l y x
    simpa using this
  have w3 : ∀ (b b' b'' x y : Byte) (l : List Byte), wr (pre ++ b :: b' :: b'' :: x :: l) (pre.length + 3) y = .ok (pre ++ b :: b' :: b'' :: y :: l) := by
    intro b b' b'' x y l
    have := wr_at (pre ++ [b, b', b'']) l y x
    simpa using this
  by_cases h1 : c < 0x80
  · rw [if_pos h1, if_pos h1, wr_at, Res.ok_bind]
    simp
  rw [if_neg h1, if_neg h1]
  by_cases h2 : c < 0x800
  · have hb : (bitLen c - 2) / 5 = 1 := by
      have := bitLen_le 11 c (by omega)
      have := lt_bitLen 7 c (by omega)
      omega
    rw [if_pos h2]
    simp only [hb]
    rw [wr_at, Res.ok_bind]
    simp only [putTail]
    rw [w1, Res.ok_bind, cont_byte]
    have k : ∀ x < 32, BitVec.ofNat 8 ((0xFF <<< (7 - 1)) ||| x) = BitVec.ofNat 8 (0xC0 + x) := by decide
    have e : c >>> (6 * 1) = c / 64 := Nat.shiftRight_eq_div_pow c 6
    rw [e, k (c / 64) (by omega)]
    simp
  rw [if_neg h2]
  by_cases h3 : c < 0x10000
  · have hb : (bitLen c - 2) / 5 = 2 := by
      have := bitLen_le 16 c (by omega)
      have := lt_bitLen 11 c (by omega)
      omega
    rw [if_pos h3]
    simp only [hb]
    rw [wr_at, Res.ok_bind]
    simp only [putTail]
    rw [w1, Res.ok_bind, cont_byte, w2, Res.ok_bind, cont_byte]
    have k : ∀ x < 16, BitVec.ofNat 8 ((0xFF <<< (7 - 2)) ||| x) = BitVec.ofNat 8 (0xE0 + x) := by decide
    have e : c >>> (6 * 2) = c / 4096 := Nat.shiftRight_eq_div_pow c 12
    have e1 : c >>> (6 * 1) = c / 64 := Nat.shiftRight_eq_div_pow c 6
    rw [e, k (c / 4096) (by omega), e1]
    simp
  · have hb : (bitLen c - 2) / 5 = 3 := by
      have := bitLen_le 21 c (by omega)
      have := lt_bitLen 16 c (by omega)
      omega
    rw [if_neg h3]
    simp only [hb]
    rw [wr_at, Res.ok_bind]
    simp only [putTail]
    rw [w1, Res.ok_bind, cont_byte, w2, Res.ok_bind, cont_byte, w3, Res.ok_bind, cont_byte]
    have k : ∀ x < 8, BitVec.ofNat 8 ((0xFF <<< (7 - 3)) ||| x) = BitVec.ofNat 8 (0xF0 + x) := by decide
    have e : c >>> (6 * 3) = c / 262144 := Nat.shiftRight_eq_div_pow c 18
    have e2 : c >>> (6 * 2) = c / 4096 := Nat.shiftRight_eq_div_pow c 12
    have e1 : c >>> (6 * 1) = c / 64 := Nat.shiftRight_eq_div_pow c 6
    rw [e, k (c / 262144) (by omega), e1, e2]
    simp

theorem unit_read (big : Bool) (u : Nat) (hu : u < 65536) (pre post : List Byte) :
    utf16Unit big (pre ++ unitBytes big u ++ post) pre.length = .ok u := by
  have r0 : ∀ a b : Byte, rd (pre ++ [a, b] ++ post) pre.length = .ok a := by intro a b; simp [rd]
  have r1 : ∀ a b : Byte, rd (pre ++ [a, b] ++ post) (pre.length + 1) = .ok b := by intro a b; simp [rd]
  unfold utf16Unit unitBytes
  cases big with
  | true =>
    simp only [if_true]
    rw [r0, r1, Res.ok_bind, Res.ok_bind]
    simp only [BitVec.toNat_ofNat]
    congr 1
    omega
  | false =>
    simp only [Bool.false_eq_true, if_false]
    rw [r0, r1, Res.ok_bind, Res.ok_bind]
    simp only [BitVec.toNat_ofNat]
    congr 1
    omega

theorem unitBytes_length (big : Bool) (u : Nat) : (unitBytes big u).length = 2 := by
  unfold unitBytes; split <;> rfl

/-- What is read for one scalar value. -/
theorem point_read (big : Bool) (c : Nat) (hc : Scalar c) (pre post : List Byte) (extra : Nat) :
    ∃ u, utf16Unit big (pre ++ ((units c).flatMap (unitBytes big) ++ post)) pre.length = .ok u ∧
      utf16Point big (pre ++ ((units c).flatMap (unitBytes big) ++ post))
        (pre.length + ((units c).flatMap (unitBytes big)).length + extra) pre.length u = .ok (c, pre.length + ((units c).flatMap (unitBytes big)).length - 2) := by
  unfold Scalar at hc
  unfold units
  by_cases h : c < 0x10000
  · rw [if_pos h]
    simp only [List.flatMap_cons, List.flatMap_nil, List.append_nil]
    refine ⟨c, ?_, ?_⟩
    · rw [← List.append_assoc]; exact unit_read big c h pre post
    · unfold utf16Point
      rw [if_neg (by omega), unitBytes_length]
      rfl
  · rw [if_neg h]
    simp only [List.flatMap_cons, List.flatMap_nil, List.append_nil]
    have hu1 : 0xD800 + (c - 0x10000) / 1024 < 65536 := by omega
    have hu2 : 0xDC00 + (c - 0x10000) % 1024 < 65536 := by omega
    refine ⟨0xD800 + (c - 0x10000) / 1024, ?_, ?_⟩
    · have := unit_read big _ hu1 pre (unitBytes big (0xDC00 + (c - 0x10000) % 1024) ++ post)
      simpa [List.append_assoc] using this
    · unfold utf16Point
      rw [if_pos (by omega), if_pos (by rw [List.length_append, unitBytes_length, unitBytes_length]; omega)]
      have := unit_read big _ hu2 (pre ++ unitBytes big (0xD800 + (c - 0x10000) / 1024)) post
      rw [List.length_append, unitBytes_length] at this
      rw [show pre ++ (unitBytes big (0xD800 + (c - 0x10000) / 1024) ++ unitBytes big (0xDC00 + (c - 0x10000) % 1024) ++ post) =
        pre ++ unitBytes big (0xD800 + (c - 0x10000) / 1024) ++ unitBytes big (0xDC00 + (c - 0x10000) % 1024) ++ post by simp [List.append_assoc], this, Res.ok_bind]
      have e1 : (0xD800 + (c - 0x10000) / 1024) &&& 0x3ff = (c - 0x10000) / 1024 := by
        rw [show (0x3ff : Nat) = 2 ^ 10 - 1 from rfl, Nat.and_two_pow_sub_one_eq_mod]; omega
      have e2 : (0xDC00 + (c - 0x10000) % 1024) &&& 0x3ff = (c - 0x10000) % 1024 := by
        rw [show (0x3ff : Nat) = 2 ^ 10 - 1 from rfl, Nat.and_two_pow_sub_one_eq_mod]; omega
      rw [e1, e2, ← Nat.shiftLeft_add_eq_or_of_lt (by omega : (c - 0x10000) % 1024 < 2 ^ 10), Nat.shiftLeft_eq, List.length_append, unitBytes_length, unitBytes_length]
      congr 2
      omega

theorem flatMap_units_even (big : Bool) (c : Nat) : ((units c).flatMap (unitBytes big)).length = 2 ∨ ((units c).flatMap (unitBytes big)).length = 4 := by
  unfold units
  split
  · left; simp [unitBytes_length]
  · right; simp [unitBytes_length]

theorem room_spec (junk : Nat → Byte) (extent : Nat) (text rest : List Byte) (he : extent ≤ (text ++ rest).length) :
    ∃ rest', (utf8Room junk extent (text ++ rest) text.length).2 = text ++ rest' ∧ 4096 ≤ rest'.length ∧
      (utf8Room junk extent (text ++ rest) text.length).1 ≤ (text ++ rest').length := by
  unfold utf8Room wizardPathExtent
  by_cases h : text.length + 4096 > extent
  · rw [if_pos h]
    simp only []
    have e : reallocMem (text ++ rest) (text.length + 4096) junk = text ++ (reallocMem (text ++ rest) (text.length + 4096) junk).drop text.length := by
      conv => lhs; rw [← List.take_append_drop text.length (reallocMem (text ++ rest) (text.length + 4096) junk)]
      congr 1
      unfold reallocMem
      rw [List.take_append_of_le_length (by rw [List.length_take, List.length_append]; omega), List.take_take, Nat.min_eq_left (by omega)]
      simp
    refine ⟨_, e, ?_, ?_⟩
    · rw [List.length_drop, reallocMem_length]; omega
    · rw [← e, reallocMem_length]; exact Nat.le_refl _
  · rw [if_neg h]
    refine ⟨rest, rfl, ?_, he⟩
    rw [List.length_append] at he
    omega

/-- The loop on a text. -/
theorem utf16Loop_spec (junk : Nat → Byte) (big : Bool) (odd : List Byte) (hodd : odd.length ≤ 1) (tail : List Byte) :
    ∀ (text : List Nat) (pre done rest : List Byte) (extent fuel : Nat), (∀ c ∈ text, Scalar c) → text.length < fuel → 2 ≤ pre.length →
      extent ≤ (done ++ rest).length →
      ∃ rest', utf16Loop junk big (pre ++ (utf16 big text ++ (odd ++ tail))) (pre.length + (utf16 big text).length + odd.length) fuel pre.length
        done.length extent (done ++ rest) = .ok (done ++ utf8 text ++ rest', (done ++ utf8 text).length) := by
  intro text
  induction text with
  | nil =>
    intro pre done rest extent fuel _ hfuel hpre _
    obtain ⟨fuel, rfl⟩ : ∃ f, fuel = f + 1 := ⟨fuel - 1, by simp at hfuel; omega⟩
    refine ⟨rest, ?_⟩
    rw [utf16Loop, if_neg (by simp [utf16]; omega)]
    simp [utf8]
  | cons c text ih =>
    intro pre done rest extent fuel ht hfuel hpre hext
    rw [List.length_cons] at hfuel
    obtain ⟨fuel, rfl⟩ : ∃ f, fuel = f + 1 := ⟨fuel - 1, by omega⟩
    have hc := ht c (List.mem_cons_self ..)
    obtain ⟨rest1, r1, r2, r3⟩ := room_spec junk extent done rest hext
    have hlt : c < 0x110000 := by unfold Scalar at hc; omega
    have hput := putUtf8_spec c hlt done rest1 (by omega)
    have hcl := utf8Char_pos c
    have hev := flatMap_units_even big c
    obtain ⟨U, hU⟩ : ∃ U, U = (units c).flatMap (unitBytes big) := ⟨_, rfl⟩
    have hutf : utf16 big (c :: text) = U ++ utf16 big text := by rw [hU]; rfl
    obtain ⟨u, p1, p2⟩ := point_read big c hc pre (utf16 big text ++ (odd ++ tail)) ((utf16 big text).length + odd.length)
    rw [← hU] at p1 p2 hev
    obtain ⟨rest', e⟩ := ih (pre ++ U) (done ++ utf8Char c) (rest1.drop (utf8Char c).length) _ fuel (fun x hx => ht x (List.mem_cons_of_mem _ hx)) (by omega)
      (by rw [List.length_append]; omega) (Nat.le_trans r3 (by simp only [List.length_append, List.length_drop]; omega))
    refine ⟨rest', ?_⟩
    have hassoc : pre ++ (U ++ utf16 big text ++ (odd ++ tail)) = pre ++ (U ++ (utf16 big text ++ (odd ++ tail))) := by simp [List.append_assoc]
    have hlen : pre.length + (U ++ utf16 big text).length + odd.length = pre.length + U.length + ((utf16 big text).length + odd.length) := by
      rw [List.length_append]; omega
    rw [utf16Loop, hutf, hassoc, hlen, if_pos (by omega), p1, Res.ok_bind, p2, Res.ok_bind]
    simp only []
    rw [r1, hput, Res.ok_bind]
    simp only []
    have e1 : pre.length + U.length - 2 + 2 = (pre ++ U).length := by rw [List.length_append]; omega
    have e2 : pre ++ (U ++ (utf16 big text ++ (odd ++ tail))) = pre ++ U ++ (utf16 big text ++ (odd ++ tail)) := by simp [List.append_assoc]
    have e3 : pre.length + U.length + ((utf16 big text).length + odd.length) = (pre ++ U).length + (utf16 big text).length + odd.length := by
      rw [List.length_append]; omega
    rw [e1, e2, e3, e]
    have e4 : utf8 (c :: text) = utf8Char c ++ utf8 text := rfl
    rw [e4, ← List.append_assoc done]

theorem utf16_length_ge (big : Bool) (text : List Nat) : text.length ≤ (utf16 big text).length := by
  induction text with
  | nil => exact Nat.le_refl _
  | cons c text ih =>
    have := flatMap_units_even big c
    show text.length + 1 ≤ ((units c).flatMap (unitBytes big) ++ utf16 big text).length
    rw [List.length_append]
    omega

theorem bom_length (big : Bool) : (bom big).length = 2 := by cases big <;> rfl

/-- **C56**, without its last step: for every text in UTF-16 of either byte order with a byte order mark (an odd byte at the end is
ignored), whatever follows it and whatever uninitialised memory holds, the loop ends inside its memory, and the text it has written is
the UTF-8 of the same characters.  What is missing is the last step, which is wrong: `C56_terminator_violated`. -/
theorem C56_convert_partial (junk : Nat → Byte) (big : Bool) (text : List Nat) (ht : ∀ c ∈ text, Scalar c) (odd : List Byte) (hodd : odd.length ≤ 1)
    (tail : List Byte) :
    let content := bom big ++ (utf16 big text ++ (odd ++ tail))
    let length := (bom big).length + (utf16 big text).length + odd.length
    ∃ rest, convertUTF16ToUTF8 junk content length = utf16Finish junk (utf8 text ++ rest) (utf8 text).length := by
  intro content length
  have hb := bom_length big
  have hrd : ∃ x, rd content 0 = .ok x ∧ (x = 0xFE ∨ x = 0xFF) ∧ (x == 0xFE) = big := by
    cases big with
    | true => exact ⟨0xFE, rfl, Or.inl rfl, rfl⟩
    | false => exact ⟨0xFF, rfl, Or.inr rfl, rfl⟩
  obtain ⟨x, x1, x2, x3⟩ := hrd
  have hfuel : text.length < length + 1 := by
    have := utf16_length_ge big text
    show text.length < (bom big).length + (utf16 big text).length + odd.length + 1
    omega
  obtain ⟨rest, e⟩ := utf16Loop_spec junk big odd hodd tail text (bom big) [] ((List.range (length + 1)).map junk) length (length + 1) ht hfuel (by omega)
    (by simp)
  refine ⟨rest, ?_⟩
  unfold convertUTF16ToUTF8
  rw [x1, Res.ok_bind, if_pos x2, x3]
  rw [hb] at e
  have : utf16Loop junk big content length (length + 1) 2 0 length ((List.range (length + 1)).map junk) = .ok (utf8 text ++ rest, (utf8 text).length) := by
    simp only [List.nil_append, List.length_nil] at e
    show utf16Loop junk big (bom big ++ (utf16 big text ++ (odd ++ tail))) length (length + 1) 2 0 length _ = _
    rw [show length = 2 + (utf16 big text).length + odd.length from by show (bom big).length + _ + _ = _; rw [hb]] at e ⊢
    exact e
  rw [this, Res.ok_bind]

/-- **C56 is false**: for every non-empty text in UTF-16 the terminating NUL is written behind the memory of the converted text, which
has just been cut to the length of the text (xml-tree.c:1388-1390). -/
theorem C56_terminator_violated (junk : Nat → Byte) (big : Bool) (text : List Nat) (ht : ∀ c ∈ text, Scalar c) (hne : text ≠ []) (tail : List Byte) :
    convertUTF16ToUTF8 junk (bom big ++ (utf16 big text ++ tail)) ((bom big).length + (utf16 big text).length) = .ub := by
  obtain ⟨rest, e⟩ := C56_convert_partial junk big text ht [] (by simp) tail
  simp only [List.nil_append, List.length_nil, Nat.add_zero] at e
  rw [e]
  unfold utf16Finish
  have hpos : (utf8 text).length ≠ 0 := by
    cases text with
    | nil => exact absurd rfl hne
    | cons c text =>
      have := (utf8Char_pos c).1
      show (utf8Char c ++ utf8 text).length ≠ 0
      rw [List.length_append]
      omega
  rw [if_neg hpos]
  unfold wr
  rw [reallocMem_length, if_neg (Nat.lt_irrefl _)]
  rfl

-- "aé€😀" in UTF-16
example : ∀ c ∈ [0x61, 0xE9, 0x20AC, 0x1F600], Scalar c := by decide

example : utf8 [0x61, 0xE9, 0x20AC, 0x1F600] = [0x61, 0xC3, 0xA9, 0xE2, 0x82, 0xAC, 0xF0, 0x9F, 0x98, 0x80] ∧
    utf16 true [0x61, 0x1F600] = [0x00, 0x61, 0xD8, 0x3D, 0xDE, 0x00] := by decide

/-- **C56**: a text that does not begin with a byte order mark is copied as it is. -/
theorem C56_plain (junk : Nat → Byte) (c : Byte) (text tail : List Byte) (hc : c ≠ 0xFE ∧ c ≠ 0xFF) :
    convertUTF16ToUTF8 junk (c :: text ++ tail) (c :: text).length = .ok (some (c :: text ++ [0], (c :: text).length)) := by
  unfold convertUTF16ToUTF8
  have h1 : rd (c :: text ++ tail) 0 = .ok c := rfl
  have h2 : rdN (c :: text ++ tail) 0 (c :: text).length = .ok (c :: text) := by
    unfold rdN
    rw [if_pos (by rw [List.length_append]; omega), List.drop_zero, List.take_left' rfl]
  rw [h1, Res.ok_bind, if_neg (fun h => h.elim hc.1 hc.2), h2, Res.ok_bind]
  have h3 : wrN ((List.range ((c :: text).length + 1)).map junk) 0 (c :: text) = .ok (c :: text ++ [junk (c :: text).length]) := by
    unfold wrN
    rw [if_pos (by simp)]
    congr 1
    rw [List.take_zero, List.nil_append, Nat.zero_add, List.range_succ, List.map_append, List.drop_left' (by simp)]
    rfl
  rw [h3, Res.ok_bind]
  have h4 := wr_at (c :: text) [] 0 (junk (c :: text).length)
  rw [h4, Res.ok_bind]

/-- **C56 is false** for documents: `NewXMLTree` measures the document with `strlen` (xml-tree.c:2030), so a document in UTF-16 ends at
the first byte that is zero.  If its first character is below 256, as the `<` of every XML document, nothing is left: the conversion
returns NULL, reported as a failed memory allocation. -/
theorem C56_document_violated (junk : Nat → Byte) (big : Bool) (c : Nat) (hc : 0 < c ∧ c < 256) (text : List Nat) (tail : List Byte) :
    convertDocument junk (bom big ++ (utf16 big (c :: text) ++ tail)) = .ok none := by
  have hu : units c = [c] := by unfold units; rw [if_pos (by omega)]
  have hbytes : utf16 big (c :: text) = unitBytes big c ++ utf16 big text := by
    show (units c).flatMap (unitBytes big) ++ utf16 big text = _
    rw [hu]; simp
  have hnz : BitVec.ofNat 8 c ≠ 0 := by
    intro h
    have := congrArg BitVec.toNat h
    simp only [BitVec.toNat_ofNat] at this
    have h0 : (0 : Byte).toNat = 0 := rfl
    rw [h0] at this
    omega
  unfold convertDocument
  cases big with
  | true =>
    have e : bom true ++ (utf16 true (c :: text) ++ tail) = 0xFE :: 0xFF :: 0 :: BitVec.ofNat 8 c :: (utf16 true text ++ tail) := by
      rw [hbytes]
      unfold unitBytes
      rw [if_pos rfl, Nat.div_eq_of_lt hc.2, Nat.mod_eq_of_lt hc.2]
      rfl
    rw [e]
    rfl
  | false =>
    have e : bom false ++ (utf16 false (c :: text) ++ tail) = 0xFF :: 0xFE :: BitVec.ofNat 8 c :: 0 :: (utf16 false text ++ tail) := by
      rw [hbytes]
      unfold unitBytes
      rw [if_neg (by decide), Nat.div_eq_of_lt hc.2, Nat.mod_eq_of_lt hc.2]
      rfl
    rw [e]
    have hl : ((0xFF : Byte) :: 0xFE :: BitVec.ofNat 8 c :: 0 :: (utf16 false text ++ tail)).takeWhile (· != 0) = [0xFF, 0xFE, BitVec.ofNat 8 c] := by
      rw [List.takeWhile_cons, if_pos (by decide), List.takeWhile_cons, if_pos (by decide), List.takeWhile_cons, if_pos (by simpa using hnz),
        List.takeWhile_cons, if_neg (by decide)]
    rw [hl]
    rfl

/-- **C56 is false** for surrogates that are not paired: a lone surrogate takes the next character with it, whatever that is.  For
every lone surrogate and every character of one code unit after it, a single character is written. -/
theorem C56_unpaired_violated (big : Bool) (s c : Nat) (hs : 0xD800 ≤ s ∧ s ≤ 0xDFFF) (hc : c < 0xD800) (pre post : List Byte) (extra : Nat) :
    ∃ u, utf16Unit big (pre ++ (unitBytes big s ++ (unitBytes big c ++ post))) pre.length = .ok u ∧
      utf16Point big (pre ++ (unitBytes big s ++ (unitBytes big c ++ post))) (pre.length + 4 + extra) pre.length u =
        .ok (s % 1024 * 1024 + c % 1024 + 0x10000, pre.length + 2) := by
  refine ⟨s, ?_, ?_⟩
  · rw [← List.append_assoc]; exact unit_read big s (by omega) pre _
  · unfold utf16Point
    rw [if_pos (by omega), if_pos (by omega)]
    have := unit_read big c (by omega) (pre ++ unitBytes big s) post
    rw [List.length_append, unitBytes_length] at this
    rw [show pre ++ (unitBytes big s ++ (unitBytes big c ++ post)) = pre ++ unitBytes big s ++ unitBytes big c ++ post by simp [List.append_assoc], this, Res.ok_bind]
    rw [show (0x3ff : Nat) = 2 ^ 10 - 1 from rfl, Nat.and_two_pow_sub_one_eq_mod, Nat.and_two_pow_sub_one_eq_mod,
      ← Nat.shiftLeft_add_eq_or_of_lt (Nat.mod_lt _ (by decide) : c % 2 ^ 10 < 2 ^ 10), Nat.shiftLeft_eq]

end Wizard.Props

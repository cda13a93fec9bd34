import Verif.Spec.Mime
/-! C131 and C132: MIME types. -/
namespace Wizard.Props
open Wizard Wizard.Spec.Mime

theorem shl_or_toNat (v : BitVec 64) (b : Byte) (h : v.toNat < 2 ^ 56) : (v <<< 8 ||| b.setWidth 64).toNat = 256 * v.toNat + b.toNat := by
  have hb := b.isLt
  rw [BitVec.toNat_or, BitVec.toNat_shiftLeft, BitVec.toNat_setWidth, Nat.mod_eq_of_lt (by omega : b.toNat < 2 ^ 64), Nat.mod_eq_of_lt (by rw [Nat.shiftLeft_eq]; omega),
    ← Nat.shiftLeft_add_eq_or_of_lt hb, Nat.shiftLeft_eq]
  omega

theorem of_byte (b : Byte) : BitVec.ofNat 64 b.toNat = b.setWidth 64 := by
  apply BitVec.eq_of_toNat_eq; simp

theorem foldl_big : ∀ (bytes : List Byte) (k : Nat) (v : BitVec 64), v.toNat < 256 ^ k → k + bytes.length ≤ 8 →
    (bytes.foldl (fun (v : BitVec 64) (b : Byte) => v <<< 8 ||| b.setWidth 64) v).toNat = bytes.foldl (fun a b => 256 * a + b.toNat) v.toNat
  | [], _, _, _, _ => rfl
  | b :: bs, k, v, hv, hk => by
    simp only [List.length_cons] at hk
    have h56 : v.toNat < 2 ^ 56 := by
      have : 256 ^ k ≤ 256 ^ 7 := Nat.pow_le_pow_right (by omega) (by omega)
      omega
    have e := shl_or_toNat v b h56
    rw [List.foldl_cons, List.foldl_cons, foldl_big bs (k + 1) _ (by rw [e, Nat.pow_succ]; have := b.isLt; omega) (by omega), e]

theorem little_reverse : ∀ bytes : List Byte, bytes.reverse.foldl (fun a b => 256 * a + b.toNat) 0 = little bytes
  | [] => rfl
  | b :: bs => by rw [List.reverse_cons, List.foldl_append, little_reverse bs]; simp [little]; omega

theorem mimeValue_eq (host : Bool) (size offset : Nat) (content : List Byte) (hs : size ≤ 8) :
    mimeValue host size offset content = BitVec.ofNat 64 (if host then little ((content.drop offset).take size) else big ((content.drop offset).take size)) := by
  have hl : ((content.drop offset).take size).length ≤ 8 := by rw [List.length_take]; omega
  apply BitVec.eq_of_toNat_eq
  cases host with
  | true =>
    have e := foldl_big ((content.drop offset).take size).reverse 0 0 (by simp) (by simp only [List.length_reverse]; omega)
    simp only [mimeValue, if_true]
    rw [BitVec.toNat_ofNat, Nat.mod_eq_of_lt]
    · rw [e]; exact little_reverse _
    · rw [← little_reverse]; have := BitVec.isLt (((content.drop offset).take size).reverse.foldl (fun v b => v <<< 8 ||| b.setWidth 64) (0 : BitVec 64)); rw [e] at this; exact this
  | false =>
    have e := foldl_big ((content.drop offset).take size) 0 0 (by simp) (by omega)
    simp only [mimeValue, Bool.false_eq_true, if_false]
    rw [BitVec.toNat_ofNat, Nat.mod_eq_of_lt]
    · rw [e]; rfl
    · have := BitVec.isLt (((content.drop offset).take size).foldl (fun v b => v <<< 8 ||| b.setWidth 64) (0 : BitVec 64)); rw [e] at this; exact this

theorem mimeSearch_iff (magic content : List Byte) (offset : Nat) : ∀ n i, mimeSearch magic content offset n i = true ↔
    ∃ k, i ≤ k ∧ k < i + n ∧ slice content (offset + k) magic.length = some magic
  | 0, i => by
    simp only [mimeSearch, Bool.false_eq_true, false_iff]
    rintro ⟨k, h1, h2, _⟩; omega
  | n + 1, i => by
    rw [mimeSearch]
    by_cases h : offset + i + magic.length > content.length
    · rw [if_pos h]
      simp only [Bool.false_eq_true, false_iff]
      rintro ⟨k, h1, h2, h3⟩
      simp only [slice] at h3
      rw [if_neg (by omega)] at h3
      cases h3
    · rw [if_neg h]
      by_cases h' : (content.drop (offset + i)).take magic.length = magic
      · rw [if_pos h']
        simp only [true_iff]
        exact ⟨i, Nat.le_refl _, by omega, by rw [slice, if_pos (by omega), h']⟩
      · rw [if_neg h', mimeSearch_iff magic content offset n (i + 1)]
        constructor
        · rintro ⟨k, h1, h2, h3⟩; exact ⟨k, by omega, by omega, h3⟩
        · rintro ⟨k, h1, h2, h3⟩
          rcases Nat.lt_or_ge i k with hk | hk
          · exact ⟨k, by omega, by omega, h3⟩
          · obtain rfl : k = i := by omega
            rw [slice, if_pos (by omega)] at h3
            exact absurd (Option.some.inj h3) h'

/-- The rules the code applies as they are meant: no mask, and four bytes of content from the offset on; a text to look for. -/
def Usual (content : List Byte) (p : MimeInfo) : Prop :=
  match p.data with
  | .byte | .short | .long => p.mask = 0 ∧ p.offset.toNat + 4 ≤ content.length
  | _ => p.magic ≠ []

theorem number_rule {host : Bool} {p : MimeInfo} {content : List Byte} {size : Nat} (hs : size ≤ 4) (h : p.mask = 0 ∧ p.offset.toNat + 4 ≤ content.length) :
    mimeEqual p (mimeValue (mimeLittle host p) size p.offset.toNat content) = true ↔ NumberRule host p size content := by
  rw [mimeValue_eq _ _ _ _ (by omega)]
  have hl : mimeLittle host p = true ↔ (p.endian = .lsb ∨ (p.endian = .undefined ∧ host = true)) := by
    simp only [mimeLittle]; cases p.endian <;> simp
  have hsl : slice content p.offset.toNat size = some ((content.drop p.offset.toNat).take size) := by rw [slice, if_pos (by omega)]
  simp only [mimeEqual, h.1, if_true, beq_iff_eq, NumberRule, hsl]
  constructor
  · intro e
    refine ⟨_, _, rfl, rfl, ?_⟩
    rw [e]
    congr 1
    by_cases hh : mimeLittle host p = true
    · rw [if_pos hh, if_pos (hl.mp hh)]
    · rw [if_neg hh, if_neg (fun x => hh (hl.mpr x))]
  · rintro ⟨bytes, v, e1, e2, e3⟩
    obtain rfl := Option.some.inj e1
    rw [← e3, e2]
    congr 1
    by_cases hh : mimeLittle host p = true
    · rw [if_pos hh, if_pos (hl.mp hh)]
    · rw [if_neg hh, if_neg (fun x => hh (hl.mpr x))]

theorem little_one (host : Bool) (content : List Byte) (offset : Nat) : mimeValue true 1 offset content = mimeValue host 1 offset content := by
  cases host with
  | true => rfl
  | false =>
    simp only [mimeValue, if_true, Bool.false_eq_true, if_false]
    cases h : content.drop offset with
    | nil => rfl
    | cons a as => simp

theorem mimeContent_iff {host : Bool} {p : MimeInfo} {content : List Byte} (h : Usual content p) : mimeContent host p content = true ↔ Rule host p content := by
  have htext : p.magic ≠ [] → (mimeSearch p.magic content p.offset.toNat (p.extent + 1) 0 = true ↔ TextRule p content) := by
    intro hm
    rw [mimeSearch_iff]
    constructor
    · rintro ⟨k, _, h2, h3⟩; exact ⟨hm, k, by omega, h3⟩
    · rintro ⟨_, k, h2, h3⟩; exact ⟨k, by omega, by omega, h3⟩
  simp only [mimeContent, Rule]
  simp only [Usual] at h
  cases hd : p.data <;> simp only [hd] at h ⊢
  · exact htext h
  · rw [if_neg (by omega), little_one (mimeLittle host p)]; exact number_rule (by omega) h
  · rw [if_neg (by omega)]; exact number_rule (by omega) h
  · rw [if_neg (by omega)]; exact number_rule (by omega) h
  · exact htext h

theorem mimeScan_cons (host : Bool) (glob : List Byte → List Byte → Bool) (filename : Option (List Byte)) (content : List Byte) (found : Option MimeInfo) (p : MimeInfo) (ps : List MimeInfo) :
    mimeScan host glob filename content found (p :: ps) =
    if p.offset < 0 then .ub
    else if found.any (fun f => p.priority > f.priority) then mimeScan host glob filename content found ps
    else mimeScan host glob filename content (if (match p.pattern, filename with | some pattern, some name => glob name pattern | _, _ => mimeContent host p content) then some p else found) ps := by
  rw [mimeScan.eq_def]
  simp only
  cases p.pattern <;> cases filename <;> rfl

theorem best_none_step {is : MimeInfo → Prop} {seen : List MimeInfo} {found : Option MimeInfo} {p : MimeInfo} (hb : Best is seen found) (h : ¬ is p) : Best is (seen ++ [p]) found := by
  cases found with
  | none =>
    intro q hq
    rcases List.mem_append.mp hq with hq | hq
    · exact hb q hq
    · rw [List.mem_singleton.mp hq]; exact h
  | some f =>
    obtain ⟨b, a, rfl, h1, h2, h3⟩ := hb
    refine ⟨b, a ++ [p], by simp, h1, h2, ?_⟩
    intro q hq hi
    rcases List.mem_append.mp hq with hq | hq
    · exact h3 q hq hi
    · rw [List.mem_singleton.mp hq] at hi; exact absurd hi h

theorem best_worse_step {is : MimeInfo → Prop} {seen : List MimeInfo} {f p : MimeInfo} (hb : Best is seen (some f)) (h : f.priority < p.priority) : Best is (seen ++ [p]) (some f) := by
  obtain ⟨b, a, rfl, h1, h2, h3⟩ := hb
  refine ⟨b, a ++ [p], by simp, h1, h2, ?_⟩
  intro q hq hi
  rcases List.mem_append.mp hq with hq | hq
  · exact h3 q hq hi
  · rw [List.mem_singleton.mp hq]; exact h

theorem best_found_step {is : MimeInfo → Prop} {seen : List MimeInfo} {found : Option MimeInfo} {p : MimeInfo} (hb : Best is seen found) (h : is p)
    (hp : ¬ found.any (fun f => p.priority > f.priority) = true) : Best is (seen ++ [p]) (some p) := by
  refine ⟨seen, [], rfl, h, ?_, by simp⟩
  intro q hq hi
  cases found with
  | none => exact absurd hi (hb q hq)
  | some f =>
    obtain ⟨b, a, rfl, h1, h2, h3⟩ := hb
    simp at hp
    rcases List.mem_append.mp hq with hq | hq
    · have := h2 q hq hi; omega
    · rcases List.mem_cons.mp hq with rfl | hq
      · omega
      · have := h3 q hq hi; omega

theorem mimeScan_best {host : Bool} {glob : List Byte → List Byte → Bool} {filename : Option (List Byte)} {content : List Byte} :
    ∀ (ps seen : List MimeInfo) (found : Option MimeInfo), (∀ p ∈ ps, 0 ≤ p.offset ∧ ((p.pattern = none ∨ filename = none) → Usual content p)) → Best (Is host glob filename content) seen found →
    ∃ r, mimeScan host glob filename content found ps = .ok r ∧ Best (Is host glob filename content) (seen ++ ps) r
  | [], seen, found, _, hb => ⟨found, rfl, by rw [List.append_nil]; exact hb⟩
  | p :: ps, seen, found, hp, hb => by
    have hrest := fun q hq => hp q (List.mem_cons_of_mem _ hq)
    have hp0 := hp p (List.mem_cons_self ..)
    have happ : seen ++ p :: ps = (seen ++ [p]) ++ ps := by simp
    rw [mimeScan_cons, if_neg (by omega), happ]
    by_cases hw : found.any (fun f => p.priority > f.priority) = true
    · rw [if_pos hw]
      refine mimeScan_best ps _ _ hrest ?_
      cases found with
      | none => simp at hw
      | some f => exact best_worse_step hb (by simpa using hw)
    · rw [if_neg hw]
      have step : ∀ c : Bool, (c = true ↔ Is host glob filename content p) → ∃ r, mimeScan host glob filename content (if c = true then some p else found) ps = .ok r ∧ Best (Is host glob filename content) (seen ++ [p] ++ ps) r := by
        intro c hc
        cases c with
        | true => exact mimeScan_best ps _ _ hrest (best_found_step hb (hc.mp rfl) hw)
        | false => exact mimeScan_best ps _ _ hrest (best_none_step hb (fun h => by have := hc.mpr h; cases this))
      refine step _ ?_
      cases hpat : p.pattern with
      | none => simp only [Is, hpat]; exact mimeContent_iff (hp0.2 (.inl hpat))
      | some pattern =>
        cases filename with
        | none => simp only [Is, hpat]; exact mimeContent_iff (hp0.2 (.inr rfl))
        | some name => simp only [Is, hpat]

/-- **C131** For every set of types whose rules are usual, every name and every content that is not empty, the lookup returns a type the
file is of, of the least priority there is among them, and nothing if it is of none. -/
theorem C131_best_partial (host : Bool) (glob : List Byte → List Byte → Bool) (cache : List MimeInfo) (filename : Option (List Byte)) (content : List Byte) (hc : content ≠ [])
    (h : ∀ p ∈ cache, 0 ≤ p.offset ∧ ((p.pattern = none ∨ filename = none) → Usual content p)) :
    ∃ r, getMimeInfo host glob cache filename content = .ok r ∧ Best (Is host glob filename content) cache r := by
  have := mimeScan_best (host := host) (glob := glob) (filename := filename) (content := content) cache [] none h (by intro q hq; cases hq)
  rw [List.nil_append] at this
  rw [getMimeInfo, if_neg (by rw [List.length_eq_zero_iff]; exact hc)]
  exact this

/-- A cache of a text rule and a number rule. -/
example : ∀ p ∈ [({ type := [1], data := .string, magic := [37, 80], offset := 2, extent := 3, priority := 50 } : MimeInfo), { type := [2], data := .short, value := 258, endian := .msb, priority := 40 }],
    0 ≤ p.offset ∧ ((p.pattern = none ∨ (none : Option (List Byte)) = none) → Usual [1, 2, 3, 4, 37, 80] p) := by
  intro p hp
  simp only [List.mem_cons, List.not_mem_nil, or_false] at hp
  rcases hp with rfl | rfl <;> simp [Usual]

example : getMimeInfo true (fun _ _ => false) [({ type := [1], data := .string, magic := [37, 80], offset := 2, extent := 3, priority := 50 } : MimeInfo),
    { type := [2], data := .short, value := 258, endian := .msb, priority := 40 }] none [1, 2, 3, 4, 37, 80] =
      .ok (some { type := [2], data := .short, value := 258, endian := .msb, priority := 40 }) := by decide +kernel

/-- **C131 is false** of masks: they mask the value of the rule, not the content.  A byte that is the value under the mask, but not the value,
is not found. -/
theorem C131_mask_violated (host : Bool) (glob : List Byte → List Byte → Bool) (p : MimeInfo) (hd : p.data = .byte) (hp : p.pattern = none) (ho : p.offset = 0) (hm : p.mask ≠ 0)
    (b : Byte) (rest : List Byte) (hb : b.setWidth 64 &&& p.mask = p.value) (hne : b.setWidth 64 ≠ p.value) :
    Is host glob none (b :: rest) p ∧ getMimeInfo host glob [p] none (b :: rest) = .ok none := by
  constructor
  · simp only [Is, hp, Rule, hd]
    refine ⟨[b], b.toNat, by simp [slice, ho], by simp [little, big], ?_⟩
    rw [if_neg hm, ← hb, of_byte]
  · have hv : mimeValue true 1 0 (b :: rest) = b.setWidth 64 := by simp [mimeValue]
    have hmm : p.value &&& p.mask = p.value := by rw [← hb, BitVec.and_assoc, BitVec.and_self]
    have : mimeContent host p (b :: rest) = false := by
      simp only [mimeContent, hd, ho, Int.toNat_zero, hv, mimeEqual, if_neg hm, hmm]
      split
      · rfl
      · simpa using fun e => hne e.symm
    rw [getMimeInfo, if_neg (by simp), mimeScan_cons, if_neg (by omega), if_neg (by simp), hp]
    simp [this, mimeScan]

/-- The high half of a byte. -/
example : (0x15 : Byte).setWidth 64 &&& 0xF0 = (0x10 : BitVec 64) ∧ (0x15 : Byte).setWidth 64 ≠ (0x10 : BitVec 64) := by decide

/-- **C131 is false** of rules about the last bytes of the content: a rule about a byte asks for four. -/
theorem C131_tail_violated (host : Bool) (glob : List Byte → List Byte → Bool) (p : MimeInfo) (hd : p.data = .byte) (hp : p.pattern = none) (ho : p.offset = 0) (hm : p.mask = 0)
    (b : Byte) (rest : List Byte) (hb : b.setWidth 64 = p.value) (hr : rest.length < 3) :
    Is host glob none (b :: rest) p ∧ getMimeInfo host glob [p] none (b :: rest) = .ok none := by
  constructor
  · simp only [Is, hp, Rule, hd]
    refine ⟨[b], b.toNat, by simp [slice, ho], by simp [little, big], ?_⟩
    rw [if_pos hm, ← hb, of_byte]
  · have : mimeContent host p (b :: rest) = false := by
      simp only [mimeContent, hd, ho, Int.toNat_zero, List.length_cons]
      rw [if_pos (by omega)]
    rw [getMimeInfo, if_neg (by simp), mimeScan_cons, if_neg (by omega), if_neg (by simp), hp]
    simp [this, mimeScan]

/-- **C131 is false** of types with only a pattern (as most of mime.xml are) when no file name is given: any content whatever is of them. -/
theorem C131_pattern_violated (host : Bool) (glob : List Byte → List Byte → Bool) (p : MimeInfo) (hd : p.data = .undefined) (hm : p.magic = []) (ho : p.offset = 0)
    (content : List Byte) (hc : content ≠ []) : ¬ Is host glob none content p ∧ getMimeInfo host glob [p] none content = .ok (some p) := by
  constructor
  · intro h
    have : Rule host p content := by simp only [Is] at h; split at h <;> first | contradiction | exact h
    simp only [Rule, hd, TextRule, hm] at this
    exact this.1 rfl
  · have : mimeContent host p content = true := by
      simp [mimeContent, hd, hm, ho, mimeSearch]
    rw [getMimeInfo, if_neg (by rw [List.length_eq_zero_iff]; exact hc), mimeScan_cons, if_neg (by omega), if_neg (by simp)]
    cases p.pattern <;> simp only [this, if_true] <;> rfl

/-- **C131 is false** of empty content: whatever the name of the file, its type is the first there is. -/
theorem C131_empty_violated (host : Bool) (glob : List Byte → List Byte → Bool) (p : MimeInfo) (cache : List MimeInfo) (filename : Option (List Byte)) :
    getMimeInfo host glob (p :: cache) filename [] = .ok (some p) := rfl

/-- **C131 is false** of a negative offset (`offset="-1"`): the first lookup to reach it fails an assertion. -/
theorem C131_offset_violated (host : Bool) (glob : List Byte → List Byte → Bool) (p : MimeInfo) (ho : p.offset < 0) (filename : Option (List Byte)) (content : List Byte) (hc : content ≠ []) :
    getMimeInfo host glob [p] filename content = .ub := by
  rw [getMimeInfo, if_neg (by rw [List.length_eq_zero_iff]; exact hc), mimeScan_cons, if_pos ho]

/-! ### Magic numbers -/

theorem octal_digit {n : Nat} (h : n < 8) : (BitVec.ofNat 8 (48 + n)).toNat = 48 + n := by rw [BitVec.toNat_ofNat]; omega

theorem magic_octal (b : Byte) (rest : List Byte) (hr : ∀ c, rest.head? = some c → isOctal c = false) :
    mimeMagic (octal b ++ rest) = match mimeMagic rest with | .ok r => .ok (b :: r) | e => e := by
  have hb := b.isLt
  have h1 := octal_digit (show b.toNat / 64 < 8 by omega)
  have h2 := octal_digit (show b.toNat / 8 % 8 < 8 by omega)
  have h3 := octal_digit (show b.toNat % 8 < 8 by omega)
  have i1 : isOctal (BitVec.ofNat 8 (48 + b.toNat / 64)) = true := by simp only [isOctal, h1]; simp; omega
  have i2 : isOctal (BitVec.ofNat 8 (48 + b.toNat / 8 % 8)) = true := by simp only [isOctal, h2]; simp; omega
  have i3 : isOctal (BitVec.ofNat 8 (48 + b.toNat % 8)) = true := by simp only [isOctal, h3]; simp; omega
  have ht : rest.takeWhile isOctal = [] := by cases rest with | nil => rfl | cons c cs => exact List.takeWhile_cons_of_neg (by simpa using hr c rfl)
  have hdw : rest.dropWhile isOctal = rest := by cases rest with | nil => rfl | cons c cs => exact List.dropWhile_cons_of_neg (by simpa using hr c rfl)
  simp only [octal, List.cons_append, List.nil_append]
  rw [mimeMagic.eq_def]
  simp only [if_true]
  rw [if_pos (by rw [h1]; omega)]
  rw [List.takeWhile_cons_of_pos i1, List.takeWhile_cons_of_pos i2, List.takeWhile_cons_of_pos i3, ht,
    List.dropWhile_cons_of_pos i1, List.dropWhile_cons_of_pos i2, List.dropWhile_cons_of_pos i3, hdw]
  have : octalByte [BitVec.ofNat 8 (48 + b.toNat / 64), BitVec.ofNat 8 (48 + b.toNat / 8 % 8), BitVec.ofNat 8 (48 + b.toNat % 8)] = b := by
    simp only [octalByte, List.foldl_cons, List.foldl_nil, h1, h2, h3]
    apply BitVec.eq_of_toNat_eq
    rw [BitVec.toNat_ofNat]; omega
  rw [this]
  cases mimeMagic rest <;> rfl

theorem magic_char {c : Byte} (hc : c ≠ asc '\\') (rest : List Byte) : mimeMagic (c :: rest) = match mimeMagic rest with | .ok r => .ok (c :: r) | e => e := by
  rw [mimeMagic.eq_def]; simp only [if_neg hc]
  cases mimeMagic rest <;> rfl

/-- The letters that stand for control characters (the bell aside), and the characters that stand for themselves. -/
inductive Named : Byte → Byte → Prop
  | backspace : Named (asc 'b') 0x08
  | tab : Named (asc 't') 0x09
  | newline : Named (asc 'n') 0x0a
  | verticalTab : Named (asc 'v') 0x0b
  | formFeed : Named (asc 'f') 0x0c
  | carriageReturn : Named (asc 'r') 0x0d
  | self {c : Byte} : c = asc '\\' ∨ c = asc '"' ∨ c = asc '\'' ∨ c = asc '?' → Named c c

theorem magic_named {c b : Byte} (h : Named c b) (text : List Byte) :
    mimeMagic (asc '\\' :: c :: text) = match mimeMagic text with | .ok r => .ok (b :: r) | e => e := by
  have hc : ¬ (48 ≤ c.toNat ∧ c.toNat ≤ 57) ∧ mimeEscape c = b := by
    cases h with
    | self h => rcases h with rfl | rfl | rfl | rfl <;> decide
    | _ => decide
  rw [mimeMagic.eq_def]
  simp only []
  rw [if_pos trivial, if_neg hc.1, hc.2]
  cases mimeMagic text <;> rfl

/-- A magic number as it may be written: each byte as itself, unless it is a backslash or an octal digit after an octal, or in octal, or as an escape. -/
inductive Writes : List Byte → List Byte → Prop
  | nil : Writes [] []
  | char {c text bytes} : c ≠ asc '\\' → Writes text bytes → Writes (c :: text) (c :: bytes)
  | octal {b text bytes} : (∀ c, text.head? = some c → isOctal c = false) → Writes text bytes → Writes (octal b ++ text) (b :: bytes)
  | escape {c b text bytes} : Named c b → Writes text bytes → Writes (asc '\\' :: c :: text) (b :: bytes)

/-- **C132** A magic number written as characters, octals and escapes is read as the bytes it stands for. -/
theorem C132_read_partial {text bytes : List Byte} (h : Writes text bytes) : mimeMagic text = .ok bytes := by
  induction h with
  | nil => rw [mimeMagic.eq_def]
  | char hc _ ih => rw [magic_char hc, ih]
  | octal hr _ ih => rw [magic_octal _ _ hr, ih]
  | escape hn _ ih => rw [magic_named hn, ih]

/-- Every byte can be written. -/
theorem C132_every (bytes : List Byte) : mimeMagic (bytes.flatMap octal) = .ok bytes := by
  refine C132_read_partial ?_
  induction bytes with
  | nil => exact .nil
  | cons b bs ih =>
    rw [List.flatMap_cons]
    refine .octal ?_ ih
    intro c hc
    cases bs with
    | nil => simp at hc
    | cons b' bs => simp only [List.flatMap_cons, octal, List.cons_append, List.head?_cons, Option.some.injEq] at hc; rw [← hc]; decide

/-- **C132 is false** of a magic number that ends in a backslash: it is read past its end. -/
theorem C132_backslash_violated (text : List Byte) (h : ∀ c ∈ text, c ≠ asc '\\') : mimeMagic (text ++ [asc '\\']) = .ub := by
  induction text with
  | nil => rw [List.nil_append, mimeMagic.eq_def]; simp
  | cons c cs ih =>
    rw [List.cons_append, magic_char (h c (List.mem_cons_self ..)), ih (fun d hd => h d (List.mem_cons_of_mem _ hd))]

/-- **C132 is false** of an octal before an octal digit (`\\1011` is not `A1`), of `\\8`, which is a zero and an eight, and of `\\a`, which is not the bell. -/
theorem C132_digits_violated :
    mimeMagic (octal 0x41 ++ [asc '1']) = .ok [0x09] ∧ mimeMagic [asc '\\', asc '8'] = .ok [0, asc '8'] ∧ mimeMagic [asc '\\', asc 'a'] = .ok [asc 'a'] := by
  refine ⟨?_, ?_, ?_⟩
  · rw [mimeMagic.eq_def]; decide +kernel
  · rw [mimeMagic.eq_def]; decide +kernel
  · rw [mimeMagic.eq_def]; decide +kernel

end Wizard.Props

import Verif.Spec.Entropy
import Verif.Lemmas.Mem
/-! C133 and C134: compression. -/
namespace Wizard.Props
open Wizard Wizard.Spec.Entropy

theorem store_fits (junk : Nat → Byte) (chaos : StringInfo) {n : Nat} {out : List Byte} (h : out.length ≤ n) (hn : n + 128 < sizeMax) :
    ∃ c d s, setStringInfoLength chaos n junk = .ok c ∧ c.length = n ∧ wrN c.datum 0 out = .ok d ∧
      setStringInfoLength ⟨n, d⟩ out.length junk = .ok s ∧ s.WF ∧ s.bytes = out ∧ s.length = out.length := by
  have e1 : ∀ (x : StringInfo) (k : Nat), k ≤ n → setStringInfoLength x k junk = .ok ⟨k, reallocMem x.datum (k + 128) junk⟩ := by
    intro x k hk; rw [setStringInfoLength, if_pos (by simp only [maxCipherBlocksize]; omega)]; rfl
  refine ⟨_, _, _, e1 _ _ (Nat.le_refl _), rfl, wrN_ok (by simp only [reallocMem_length]; omega), e1 _ _ h, ?_, ?_, rfl⟩
  · simp [StringInfo.WF, maxCipherBlocksize]
  · simp only [StringInfo.bytes, List.take_zero, List.nil_append]
    rw [reallocMem, List.take_append_of_le_length (by simp only [List.length_take, List.length_append]; omega), List.take_take, Nat.min_eq_left (by omega), List.take_left]

theorem avail_all {message : StringInfo} (h : message.WF) : availIn message message.length = .ok message.bytes := by
  have : message.length + 128 ≤ message.datum.length := h
  rw [availIn, rdN_ok (by omega)]; rfl

theorem avail_small {message : StringInfo} (h : message.WF) (hs : message.length < 4294967296) : availIn message (uInt message.length) = .ok message.bytes := by
  rw [uInt, Nat.mod_eq_of_lt hs, avail_all h]

theorem message_len {message : StringInfo} (h : message.WF) : message.bytes.length = message.length := by
  have : message.length + 128 ≤ message.datum.length := h
  simp only [StringInfo.bytes, List.length_take]; omega

/-- The room each function makes for the stream. -/
def streamRoom (libs : CompressLibs) : EntropyType → Nat → Nat
  | .zip, n => libs.zlib.bound n
  | .bzip, n => n + n / 100 + 600
  | .lzma, n => n + n / 3 + 128
  | _, _ => 0

/-- What the code can hold: sizes of `unsigned int` for zlib and libbz2. -/
def Manageable (libs : CompressLibs) (type : EntropyType) (n : Nat) : Prop :=
  streamRoom libs type n + 128 < sizeMax ∧ (type = .lzma ∨ (n < 4294967296 ∧ streamRoom libs type n < 4294967296))

theorem sizeMax_big : 4294967296 + 4294967296 < sizeMax := by unfold sizeMax; decide

theorem entropy_increase {libs : CompressLibs} (hl : Documented libs) (junk : Nat → Byte) {type : EntropyType} {lib : CompressLib} (ht : library libs type = some lib) {level : Nat}
    (hlev : lib.levelOK level = true) (chaos message : StringInfo) (hm : message.WF) (hh : Manageable libs type message.length) :
    ∃ s, increaseEntropy libs junk type level chaos message = .ok (true, s) ∧ s.WF ∧ s.bytes = lib.compress level message.bytes := by
  have hlen := message_len hm
  have hbig := sizeMax_big
  cases type with
  | undefined => cases ht
  | none => cases ht
  | zip =>
    obtain rfl : libs.zlib = lib := Option.some.inj ht
    have h1 := hh.2.resolve_left (by simp)
    have hc := hl.zlib.2 level message.bytes hlev
    rw [hlen] at hc
    obtain ⟨c, d, s, e1, e2, e3, e4, e5, e6, e7⟩ := store_fits junk chaos hc hh.1
    refine ⟨s, ?_, e5, e6⟩
    simp only [increaseEntropy, increaseZip, hlev, Bool.true_eq_false, if_false, avail_small hm h1.1, Res.ok_bind, e1]
    have hr : uInt (libs.zlib.bound message.length) = libs.zlib.bound message.length := Nat.mod_eq_of_lt h1.2
    simp only [compressFinish, e2, hr, hc, if_true, e3, Res.ok_bind, ne_eq, not_true_eq_false, if_false, e4]
  | bzip =>
    obtain rfl : libs.bz2 = lib := Option.some.inj ht
    have h1 := hh.2.resolve_left (by simp)
    have hc : _ ≤ message.length + message.length / 100 + 600 := hlen ▸ hl.bz2.2 level message.bytes hlev
    obtain ⟨c, d, s, e1, e2, e3, e4, e5, e6, e7⟩ := store_fits junk chaos hc hh.1
    refine ⟨s, ?_, e5, e6⟩
    simp only [increaseEntropy, increaseBzip, hlev, Bool.true_eq_false, if_false, avail_small hm h1.1, Res.ok_bind, e1]
    have hr : uInt (message.length + message.length / 100 + 600) = message.length + message.length / 100 + 600 := Nat.mod_eq_of_lt h1.2
    have hr' : uInt (libs.bz2.compress level message.bytes).length = (libs.bz2.compress level message.bytes).length :=
      Nat.mod_eq_of_lt (Nat.lt_of_le_of_lt hc h1.2)
    simp only [compressFinish, e2, hr, hr', hc, if_true, e3, Res.ok_bind, ne_eq, not_true_eq_false, if_false, e4]
  | lzma =>
    obtain rfl : libs.xz = lib := Option.some.inj ht
    have hc : _ ≤ message.length + message.length / 3 + 128 := hlen ▸ hl.xz.2 level message.bytes hlev
    obtain ⟨c, d, s, e1, e2, e3, e4, e5, e6, e7⟩ := store_fits junk chaos hc hh.1
    refine ⟨s, ?_, e5, e6⟩
    simp only [increaseEntropy, increaseLzma, avail_all hm, Res.ok_bind, e1, hlev, Bool.true_eq_false, if_false]
    simp only [compressFinish, e2, hc, if_true, e3, Res.ok_bind, ne_eq, not_true_eq_false, false_and, if_false, e4]

theorem entropy_restore {libs : CompressLibs} (junk : Nat → Byte) {type : EntropyType} {lib : CompressLib} (ht : library libs type = some lib) {out : List Byte} {n : Nat}
    (chaos message : StringInfo) (hm : message.WF) (hd : lib.decode message.bytes = (out, .done)) (hn : out.length ≤ n) (hmax : n + 128 < sizeMax)
    (hh : type = .lzma ∨ (message.length < 4294967296 ∧ n < 4294967296)) :
    ∃ s, restoreEntropy libs junk type n chaos message = .ok (true, s) ∧ s.WF ∧ s.bytes = out := by
  obtain ⟨c, d, s, e1, e2, e3, e4, e5, e6, e7⟩ := store_fits junk chaos hn hmax
  cases type with
  | undefined => cases ht
  | none => cases ht
  | zip =>
    obtain rfl : libs.zlib = lib := Option.some.inj ht
    have h1 := hh.resolve_left (by simp)
    refine ⟨s, ?_, e5, e6⟩
    have hr : uInt n = n := Nat.mod_eq_of_lt h1.2
    simp only [restoreEntropy, restoreZip, avail_small hm h1.1, Res.ok_bind, e1, decodeFinish, hd, e2, hr, hn, if_true, e3, ne_eq, not_true_eq_false, if_false, e4]
  | bzip =>
    obtain rfl : libs.bz2 = lib := Option.some.inj ht
    have h1 := hh.resolve_left (by simp)
    refine ⟨s, ?_, e5, e6⟩
    have hr : uInt n = n := Nat.mod_eq_of_lt h1.2
    have hr' : uInt out.length = out.length := Nat.mod_eq_of_lt (Nat.lt_of_le_of_lt hn h1.2)
    simp only [restoreEntropy, restoreBzip, avail_small hm h1.1, Res.ok_bind, e1, decodeFinish, hd, e2, hr, hr', hn, if_true, e3, ne_eq, not_true_eq_false, if_false, e4]
  | lzma =>
    obtain rfl : libs.xz = lib := Option.some.inj ht
    refine ⟨s, ?_, e5, e6⟩
    simp only [restoreEntropy, restoreLzma, avail_all hm, Res.ok_bind, e1, lzmaRun, hd, e2, hn, if_true, e3, lzmaFinish, ne_eq, not_true_eq_false, false_and, if_false, e4]

/-- **C133** (messages, and rooms for their streams, of less than 4 GiB for zip and bzip) What is compressed at any level is restored exactly,
into any object, given the size of the message or more. -/
theorem C133_restored_partial {libs : CompressLibs} (hl : Documented libs) (junk : Nat → Byte) {type : EntropyType} {lib : CompressLib} (ht : library libs type = some lib) {level : Nat}
    (hlev : lib.levelOK level = true) (chaos chaos' message : StringInfo) (hm : message.WF) (hh : Manageable libs type message.length)
    (n : Nat) (hn : message.length ≤ n) (hmax : n + 128 < sizeMax) (hn' : type = .lzma ∨ n < 4294967296) :
    ∃ s s', increaseEntropy libs junk type level chaos message = .ok (true, s) ∧ restoreEntropy libs junk type n chaos' s = .ok (true, s') ∧ s'.bytes = message.bytes := by
  obtain ⟨s, e1, e2, e3⟩ := entropy_increase hl junk ht hlev chaos message hm hh
  have hd : lib.decode s.bytes = (message.bytes, .done) := by
    rw [e3]
    cases type with
    | undefined => cases ht
    | none => cases ht
    | zip => obtain rfl : libs.zlib = lib := Option.some.inj ht; exact hl.zlib.1 level _ hlev
    | bzip => obtain rfl : libs.bz2 = lib := Option.some.inj ht; exact hl.bz2.1 level _ hlev
    | lzma => obtain rfl : libs.xz = lib := Option.some.inj ht; exact hl.xz.1 level _ hlev
  have hs : type = .lzma ∨ (s.length < 4294967296 ∧ n < 4294967296) := by
    by_cases hz : type = .lzma
    · exact .inl hz
    · obtain ⟨h1, h2⟩ := hh.2.resolve_left hz
      refine .inr ⟨?_, hn'.resolve_left hz⟩
      rw [← message_len e2, e3]
      have hb := message_len hm
      cases type with
      | undefined => cases ht
      | none => cases ht
      | zip =>
        obtain rfl : libs.zlib = lib := Option.some.inj ht
        have := hl.zlib.2 level message.bytes hlev
        rw [hb] at this
        exact Nat.lt_of_le_of_lt this h2
      | bzip =>
        obtain rfl : libs.bz2 = lib := Option.some.inj ht
        have := hl.bz2.2 level message.bytes hlev
        rw [hb] at this
        exact Nat.lt_of_le_of_lt this h2
      | lzma => exact absurd rfl hz
  obtain ⟨s', e4, e5, e6⟩ := entropy_restore junk ht chaos' s e2 hd (by rw [message_len hm]; exact hn) hmax hs
  exact ⟨s, s', e1, e4, e6⟩

/-- A library that stores: a byte that tells how the stream ends, and the message. -/
def storing : CompressLib :=
  ⟨fun _ m => m ++ [0], fun s => match s.getLast? with | some 0 => (s.dropLast, .done) | _ => (s, .more), fun _ => true, fun n => n + 1⟩

theorem storing_documented : Documented ⟨storing, storing, storing⟩ := by
  have h1 : Lossless storing := by intro level m _; simp [storing]
  refine ⟨⟨h1, ?_⟩, ⟨h1, ?_⟩, ⟨h1, ?_⟩⟩ <;> intro level m _ <;> simp [storing] <;> omega

/-- Such libraries exist, and hold small messages. -/
example : Manageable ⟨storing, storing, storing⟩ .zip 3 ∧ Manageable ⟨storing, storing, storing⟩ .bzip 3 ∧ Manageable ⟨storing, storing, storing⟩ .lzma 3 := by
  have := sizeMax_big
  refine ⟨⟨?_, .inr ⟨?_, ?_⟩⟩, ⟨?_, .inr ⟨?_, ?_⟩⟩, ⟨?_, .inl rfl⟩⟩ <;> (try simp only [streamRoom, storing]) <;> omega

/-- **C133 is false** of messages of 4 GiB and more: zip reports success for `4 GiB * (i + 1) + k` bytes, and what it has compressed are the first `k`. -/
theorem C133_large_violated {libs : CompressLibs} (hl : Documented libs) (junk : Nat → Byte) {level : Nat} (hlev : libs.zlib.levelOK level = true) (chaos message : StringInfo) (hm : message.WF)
    (hk : 4294967296 ≤ message.length) (hmax : libs.zlib.bound message.length + 128 < sizeMax)
    (hroom : (libs.zlib.compress level (message.bytes.take (message.length % 4294967296))).length ≤ libs.zlib.bound message.length % 4294967296) :
    ∃ s, increaseEntropy libs junk .zip level chaos message = .ok (true, s) ∧ s.bytes = libs.zlib.compress level (message.bytes.take (message.length % 4294967296)) ∧
      libs.zlib.decode s.bytes = (message.bytes.take (message.length % 4294967296), .done) ∧ (message.bytes.take (message.length % 4294967296)).length < message.length := by
  have hwf : message.length + 128 ≤ message.datum.length := hm
  have hmod := Nat.mod_lt message.length (show 4294967296 > 0 by omega)
  have hin : availIn message (uInt message.length) = .ok (message.bytes.take (message.length % 4294967296)) := by
    rw [availIn, uInt, rdN_ok (by omega), List.drop_zero, StringInfo.bytes, List.take_take, Nat.min_eq_left (by omega)]
  obtain ⟨c, d, s, e1, e2, e3, e4, e5, e6, e7⟩ := store_fits junk chaos (Nat.le_trans hroom (Nat.mod_le _ _)) hmax
  refine ⟨s, ?_, e6, by rw [e6]; exact hl.zlib.1 level _ hlev, by rw [List.length_take, message_len hm]; omega⟩
  simp only [increaseEntropy, increaseZip, hlev, Bool.true_eq_false, if_false, hin, Res.ok_bind, e1]
  simp only [compressFinish, e2, uInt, hroom, if_true, e3, Res.ok_bind, ne_eq, not_true_eq_false, if_false, e4]

/-- Such a message: 4 GiB and three bytes, for the library that stores. -/
example : ∃ message : StringInfo, message.WF ∧ message.length = 4294967299 ∧ storing.bound message.length + 128 < sizeMax ∧
    (storing.compress 6 (message.bytes.take (message.length % 4294967296))).length ≤ storing.bound message.length % 4294967296 := by
  have h := sizeMax_big
  refine ⟨⟨4294967299, List.replicate (4294967299 + 128) 7⟩, ?_, rfl, ?_, ?_⟩
  · simp only [StringInfo.WF, List.length_replicate, maxCipherBlocksize]; omega
  · simp only [storing]; omega
  · simp only [storing, List.length_append, List.length_take, List.length_cons, List.length_nil]; omega

/-- **C134** What zip or bzip restores (of less than 4 GiB) is all of a complete stream; a stream that is cut, damaged or longer than it was
said to be is reported. -/
theorem C134_reported_partial {libs : CompressLibs} (junk : Nat → Byte) {type : EntropyType} {lib : CompressLib} (ht : library libs type = some lib) (hz : type ≠ .lzma) {n : Nat}
    (chaos message : StringInfo) (hm : message.WF) (hmax : n + 128 < sizeMax) (hh : message.length < 4294967296 ∧ n < 4294967296) :
    ∃ st s, restoreEntropy libs junk type n chaos message = .ok (st, s) ∧ (st = true ↔ (lib.decode message.bytes).2 = .done ∧ (lib.decode message.bytes).1.length ≤ n) ∧
      (st = true → s.bytes = (lib.decode message.bytes).1) := by
  by_cases hd : (lib.decode message.bytes).2 = .done ∧ (lib.decode message.bytes).1.length ≤ n
  · obtain ⟨s, e1, _, e3⟩ := entropy_restore (libs := libs) junk ht chaos message hm (out := (lib.decode message.bytes).1) (by rw [← hd.1]) hd.2 hmax (.inr hh)
    exact ⟨true, s, e1, by simp [hd], fun _ => e3⟩
  · have hr : uInt n = n := Nat.mod_eq_of_lt hh.2
    have hf : ∀ input, input = message.bytes → (decodeFinish lib input n).1 ≠ .streamEnd ∧ (decodeFinish lib input n).2.length ≤ n := by
      rintro _ rfl
      simp only [decodeFinish]
      by_cases h1 : (lib.decode message.bytes).1.length ≤ n
      · rw [if_pos h1]
        cases h2 : (lib.decode message.bytes).2 with
        | done => exact absurd ⟨h2, h1⟩ hd
        | more => exact ⟨by simp, h1⟩
        | bad => exact ⟨by simp, h1⟩
      · rw [if_neg h1]; exact ⟨by simp, by simp; omega⟩
    obtain ⟨hne, hlen⟩ := hf _ rfl
    obtain ⟨c, d, s, e1, e2, e3, _⟩ := store_fits junk chaos hlen hmax
    refine ⟨false, { c with datum := d }, ?_, by simp [hd], by simp⟩
    cases type with
    | undefined => cases ht
    | none => cases ht
    | zip =>
      obtain rfl : libs.zlib = lib := Option.some.inj ht
      simp only [restoreEntropy, restoreZip, avail_small hm hh.1, Res.ok_bind, e1, e2, hr, e3]
      rw [if_pos hne]
    | bzip =>
      obtain rfl : libs.bz2 = lib := Option.some.inj ht
      simp only [restoreEntropy, restoreBzip, avail_small hm hh.1, Res.ok_bind, e1, e2, hr, e3]
      rw [if_pos hne]
    | lzma => exact absurd rfl hz

/-- **C134** lzma reports streams that are damaged, if there is room for what comes before the damage. -/
theorem C134_lzma_partial {libs : CompressLibs} (junk : Nat → Byte) {n : Nat} (chaos message : StringInfo) (hm : message.WF) (hmax : n + 128 < sizeMax)
    (hd : (libs.xz.decode message.bytes).2 = .bad) (hn : (libs.xz.decode message.bytes).1.length ≤ n) :
    ∃ s, restoreEntropy libs junk .lzma n chaos message = .ok (false, s) := by
  obtain ⟨c, d, s, e1, e2, e3, _⟩ := store_fits junk chaos hn hmax
  refine ⟨{ c with datum := d }, ?_⟩
  simp only [restoreEntropy, restoreLzma, avail_all hm, Res.ok_bind, e1, lzmaRun, e2, hn, if_true, hd, e3, lzmaFinish]
  rfl

/-- **C134 is false** of lzma: a stream that is cut is restored as far as it goes, and success is reported. -/
theorem C134_cut_violated {libs : CompressLibs} (junk : Nat → Byte) {n : Nat} (chaos message : StringInfo) (hm : message.WF) (hmax : n + 128 < sizeMax) (h0 : message.length ≠ 0)
    (hd : (libs.xz.decode message.bytes).2 = .more) (hn : (libs.xz.decode message.bytes).1.length ≤ n) :
    ∃ s, restoreEntropy libs junk .lzma n chaos message = .ok (true, s) ∧ s.bytes = (libs.xz.decode message.bytes).1 := by
  obtain ⟨c, d, s, e1, e2, e3, e4, e5, e6, e7⟩ := store_fits junk chaos hn hmax
  refine ⟨s, ?_, e6⟩
  have hne : (!message.bytes.isEmpty) = true := by
    have := message_len hm
    cases hb : message.bytes with
    | nil => rw [hb] at this; exact absurd this.symm h0
    | cons a as => rfl
  simp only [restoreEntropy, restoreLzma, avail_all hm, Res.ok_bind, e1, lzmaRun, e2, hn, if_true, hd, e3, lzmaFinish, hne, ne_eq, reduceCtorEq, not_false_eq_true, not_true_eq_false, and_false, if_false, e4]

/-- **C134 is false** of lzma: given too small a size, it restores only so much of the message, and reports success. -/
theorem C134_short_violated {libs : CompressLibs} (junk : Nat → Byte) {n : Nat} (chaos message : StringInfo) (hm : message.WF) (hmax : n + 128 < sizeMax) (h0 : message.length ≠ 0)
    (hn : n < (libs.xz.decode message.bytes).1.length) :
    ∃ s, restoreEntropy libs junk .lzma n chaos message = .ok (true, s) ∧ s.bytes = (libs.xz.decode message.bytes).1.take n := by
  have hl : ((libs.xz.decode message.bytes).1.take n).length ≤ n := by rw [List.length_take]; omega
  obtain ⟨c, d, s, e1, e2, e3, e4, e5, e6, e7⟩ := store_fits junk chaos hl hmax
  refine ⟨s, ?_, e6⟩
  have hne : (!message.bytes.isEmpty) = true := by
    have := message_len hm
    cases hb : message.bytes with
    | nil => rw [hb] at this; exact absurd this.symm h0
    | cons a as => rfl
  simp only [restoreEntropy, restoreLzma, avail_all hm, Res.ok_bind, e1, lzmaRun, e2, if_neg (show ¬ (libs.xz.decode message.bytes).1.length ≤ n by omega), e3, lzmaFinish, hne, if_true,
    ne_eq, reduceCtorEq, not_false_eq_true, not_true_eq_false, and_false, if_false, e4]

/-- A cut stream, and one too long for the size given, of the library that stores. -/
example : storing.decode [1, 2, 3] = ([1, 2, 3], .more) ∧ storing.decode [1, 2, 3, 0] = ([1, 2, 3], .done) := ⟨rfl, rfl⟩

/-- A type that names no library is refused. -/
theorem C133_unknown {libs : CompressLibs} (junk : Nat → Byte) {type : EntropyType} (ht : library libs type = none) (level n : Nat) (chaos message : StringInfo) :
    increaseEntropy libs junk type level chaos message = .fatal ∧ restoreEntropy libs junk type n chaos message = .fatal := by
  cases type <;> first | exact ⟨rfl, rfl⟩ | cases ht

/-- **C133** A level the library does not take is reported. -/
theorem C133_level_partial {libs : CompressLibs} (junk : Nat → Byte) {type : EntropyType} {lib : CompressLib} (ht : library libs type = some lib) {level : Nat}
    (hlev : lib.levelOK level = false) (chaos message : StringInfo) (hm : message.WF) (hmax : streamRoom libs type message.length + 128 < sizeMax) :
    ∃ s, increaseEntropy libs junk type level chaos message = .ok (false, s) := by
  cases type with
  | undefined => cases ht
  | none => cases ht
  | zip => obtain rfl : libs.zlib = lib := Option.some.inj ht; exact ⟨chaos, by simp [increaseEntropy, increaseZip, hlev]⟩
  | bzip => obtain rfl : libs.bz2 = lib := Option.some.inj ht; exact ⟨chaos, by simp [increaseEntropy, increaseBzip, hlev]⟩
  | lzma =>
    obtain rfl : libs.xz = lib := Option.some.inj ht
    obtain ⟨c, d, s, e1, e2, _⟩ := store_fits junk chaos (out := []) (Nat.zero_le _) hmax
    simp only [streamRoom] at e1
    exact ⟨c, by simp [increaseEntropy, increaseLzma, avail_all hm, e1, hlev]⟩

end Wizard.Props

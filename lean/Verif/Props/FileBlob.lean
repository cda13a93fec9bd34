import Verif.Spec.FileBlob
/-! C145: `FileToBlob`. -/
namespace Wizard.Props
open Wizard Wizard.Spec.FileBlob

/-- The size of the pieces a stream is read in. -/
def quantumOf (size : Nat) : Nat := if 0 < size then min size 8192 else 8192

theorem stream_read {q extent : Nat} {reads : List FileRead} {contents : List Byte} (h : Delivers reads contents) (hc : Calm reads) (hg : Gentle (q + 1) reads) :
    ∀ (got : List Byte) (size : Nat), got.length + firstPiece reads ≤ size → got.length + contents.length + q + 2 ≤ sizeMax →
      blobStream q extent reads got size false = .blob ((got ++ contents).take extent) := by
  induction h with
  | done => intro got size _ _; simp [blobStream]
  | ended => intro got size _ _; simp [blobStream]
  | interrupted _ _ => exact absurd (List.mem_cons_self ..) hc
  | @piece b bs rs rest h ih =>
    intro got size h1 h2
    have h1' : got.length + (b :: bs).length ≤ size := h1
    rw [List.length_append] at h2
    rw [blobStream, if_neg (by simp), if_neg (by omega), if_neg (by omega)]
    split
    · rename_i he
      rw [← List.append_assoc, List.take_append_of_le_length (l₁ := got ++ (b :: bs)) (by rw [List.length_append]; exact he)]
    · rw [ih (fun hm => hc (List.mem_cons_of_mem _ hm)) hg.2, List.append_assoc]
      · have := hg.1
        simp only [List.length_append, piece] at *
        omega
      · rw [List.length_append]; omega

/-- **C145** (partial): what a stream delivers, in pieces of any sizes, is returned as a whole, cut at `extent`: if any two pieces one behind the other have no
more than 8193 bytes together (one more than the size of the stream, if that is known and smaller), and no call is interrupted. -/
theorem C145_stream_partial (kind : FileKind) (hm : kind.missing = false) (hs : kind.stream = true) (extent : Nat) (reads : List FileRead) (contents : List Byte) (h : Delivers reads contents)
    (hc : Calm reads) (hf : firstPiece reads ≤ quantumOf kind.size) (hg : Gentle (quantumOf kind.size + 1) reads) (hl : contents.length < 2 ^ 63) :
    fileToBlob kind extent reads false = .blob (contents.take extent) := by
  have hq : quantumOf kind.size ≤ 8192 := by unfold quantumOf; split <;> omega
  rw [fileToBlob, if_neg (by simp [hm]), if_pos hs]
  exact stream_read h hc hg [] _ (by rw [List.length_nil, Nat.zero_add]; exact hf) (by simp [sizeMax]; omega)

example : fileToBlob { stream := true, size := 0 } 4 [.data [1, 2], .data [3], .data [4, 5], .ended] false = .blob [1, 2, 3, 4] :=
  C145_stream_partial _ rfl rfl 4 _ [1, 2, 3, 4, 5] (.piece (.piece (.piece .ended))) (by simp [Calm]) (by decide) (by simp [Gentle, piece, firstPiece, quantumOf]) (by decide)

theorem file_read {length : Nat} {reads : List FileRead} {contents : List Byte} (h : Delivers reads contents) :
    ∀ (got : List Byte) (intr : Bool), got.length + contents.length = length → blobRead length reads got intr = .blob (got ++ contents) := by
  induction h with
  | done => intro got intr hl; simp [blobRead] at *; omega
  | ended => intro got intr hl; simp [blobRead] at *; omega
  | @interrupted _ rest _ ih =>
    intro got intr hl
    rw [blobRead]
    split
    · have : rest = [] := List.length_eq_zero_iff.1 (by omega)
      rw [this, List.append_nil]
    · exact ih got true hl
  | @piece b bs rs rest h ih =>
    intro got intr hl
    rw [List.length_append] at hl
    rw [blobRead, if_neg (by simp at *; omega), if_neg (by simp), if_neg (by omega), ih _ _ (by rw [List.length_append]; omega), List.append_assoc]

/-- **C145** (partial): a file of known size that cannot be mapped is read as a whole, up to `extent`, in pieces of any sizes and with interruptions anywhere. -/
theorem C145_file_partial (kind : FileKind) (hm : kind.missing = false) (hs : kind.stream = false) (hp : kind.map = none) (extent : Nat) (reads : List FileRead) (contents : List Byte) (intr : Bool)
    (h : Delivers reads contents) (hl : contents.length = min kind.size extent) : fileToBlob kind extent reads intr = .blob contents := by
  rw [fileToBlob, if_neg (by simp [hm]), if_neg (by simp [hs])]
  simp only [hp]
  exact file_read h [] intr (by simpa using hl)

example : fileToBlob { stream := false, size := 3 } 100 [.data [1], .interrupted, .data [2, 3]] false = .blob [1, 2, 3] :=
  C145_file_partial _ rfl rfl rfl 100 _ [1, 2, 3] _ (.piece (.interrupted (.piece .done))) (by decide)

/-- **C145** (partial): a file that can be mapped is returned up to `extent`. -/
theorem C145_map_partial (kind : FileKind) (contents : List Byte) (hm : kind.missing = false) (hs : kind.stream = false) (hp : kind.map = some contents) (hl : contents.length = kind.size)
    (extent : Nat) (reads : List FileRead) (intr : Bool) : fileToBlob kind extent reads intr = .blob (contents.take extent) := by
  rw [fileToBlob, if_neg (by simp [hm]), if_neg (by simp [hs])]
  simp only [hp]
  rw [← hl, Nat.min_comm, ← List.take_eq_take_min]

theorem file_short {length : Nat} {reads : List FileRead} {contents : List Byte} (h : Delivers reads contents) (hc : Calm reads) :
    ∀ (got : List Byte), got.length + contents.length < length → blobRead length reads got false = .null := by
  induction h with
  | done => intro got hl; simp [blobRead] at *; omega
  | ended => intro got hl; simp [blobRead] at *; omega
  | interrupted _ _ => exact absurd (List.mem_cons_self ..) hc
  | @piece b bs rs rest h ih =>
    intro got hl
    rw [List.length_append] at hl
    rw [blobRead, if_neg (by omega), if_neg (by simp), if_neg (by omega), ih (fun hm => hc (List.mem_cons_of_mem _ hm)) _ (by rw [List.length_append]; omega)]

/-- **C145** (partial): a file that cannot be opened, or turns out to be shorter than it was, is reported, if no call is interrupted. -/
theorem C145_short_partial (kind : FileKind) (hs : kind.stream = false) (hp : kind.map = none) (extent : Nat) (reads : List FileRead) (contents : List Byte)
    (h : Delivers reads contents) (hc : Calm reads) (hl : kind.missing = true ∨ contents.length < min kind.size extent) : fileToBlob kind extent reads false = .null := by
  rw [fileToBlob]
  split
  · rfl
  · rename_i hm
    rw [if_neg (by simp [hs])]
    simp only [hp]
    exact file_short h hc [] (by simpa using hl.resolve_left hm)

theorem file_fails {length : Nat} {reads rs : List FileRead} {contents : List Byte} (h : Delivers reads contents) (he : FileRead.ended ∉ reads) :
    ∀ (got : List Byte) (intr : Bool), got.length + contents.length < length → blobRead length (reads ++ .failed :: rs) got intr = .null := by
  induction h with
  | done => intro got intr hl; rw [List.nil_append, blobRead, if_neg (by simp at hl; omega)]
  | ended => exact absurd (List.mem_cons_self ..) he
  | interrupted _ ih =>
    intro got intr hl
    rw [List.cons_append, blobRead, if_neg (by omega)]
    exact ih (fun hm => he (List.mem_cons_of_mem _ hm)) got true hl
  | @piece b bs rs rest h ih =>
    intro got intr hl
    rw [List.length_append] at hl
    rw [List.cons_append, blobRead, if_neg (by omega), if_neg (by simp), if_neg (by omega), ih (fun hm => he (List.mem_cons_of_mem _ hm)) _ _ (by rw [List.length_append]; omega)]

/-- **C145** (partial): if reading a file of known size fails before all of it was read, that is reported, with pieces of any sizes and interruptions anywhere
before. -/
theorem C145_fails_partial (kind : FileKind) (hs : kind.stream = false) (hp : kind.map = none) (extent : Nat) (reads rs : List FileRead) (contents : List Byte) (intr : Bool)
    (h : Delivers reads contents) (he : FileRead.ended ∉ reads) (hl : contents.length < min kind.size extent) : fileToBlob kind extent (reads ++ .failed :: rs) intr = .null := by
  rw [fileToBlob]
  split
  · rfl
  · rw [if_neg (by simp [hs])]
    simp only [hp]
    exact file_fails h he [] intr (by simpa using hl)

example : fileToBlob { stream := false, size := 3 } 100 [.data [1], .interrupted, .failed, .data [2, 3]] false = .null :=
  C145_fails_partial _ rfl rfl 100 [.data [1], .interrupted] [.data [2, 3]] [1] _ (.piece (.interrupted .done)) (by simp) (by decide)

/-- **C145 is false** of streams: if two calls of `read` in a row deliver more than 8193 bytes together, `FileToBlob` writes outside the memory it allocated,
whatever the bytes are. The memory has room for the second piece only before the first is counted. -/
theorem C145_overrun_violated (a b : List Byte) (rs : List FileRead) (extent : Nat) (intr : Bool) (ha : 0 < a.length ∧ a.length ≤ 8192) (hb : b.length ≤ 8192) (h : 8193 < a.length + b.length) (he : a.length < extent) :
    fileToBlob { stream := true, size := 0 } extent (.data a :: .data b :: rs) intr = .overrun := by
  have ha' : a ≠ [] := fun e => by rw [e] at ha; simp at ha
  have hb' : b ≠ [] := fun e => by rw [e] at h; simp at h; omega
  rw [fileToBlob, if_neg (by simp), if_pos rfl]
  simp only [Nat.lt_irrefl, if_false, wizardMaxBufferExtent]
  have hsm : sizeMax = 18446744073709551616 := by unfold sizeMax; decide
  rw [blobStream, if_neg (by simp [ha']), if_neg (by simp; omega), if_neg (by simp; omega), if_neg (by simp; omega), blobStream, if_neg (by simp [hb']), if_pos (by simp; omega)]

theorem stream_stuck {q extent : Nat} {reads : List FileRead} {contents : List Byte} (h : Delivers reads contents) :
    ∀ (got : List Byte) (size : Nat) (intr : Bool), (intr = true ∨ FileRead.interrupted ∈ reads) → got.length + contents.length + q + 2 ≤ sizeMax → got.length + contents.length < extent →
      blobStream q extent reads got size intr = .forever ∨ blobStream q extent reads got size intr = .overrun := by
  induction h with
  | done =>
    intro got size intr hi h1 h2
    have hi : intr = true := hi.resolve_right (by simp)
    simp only [List.length_nil, Nat.add_zero] at h1 h2
    rw [blobStream, if_pos hi, if_neg (by omega), if_neg (by omega)]
    exact .inl rfl
  | ended =>
    intro got size intr hi h1 h2
    have hi : intr = true := hi.resolve_right (by simp)
    simp only [List.length_nil, Nat.add_zero] at h1 h2
    rw [blobStream, if_pos hi, if_neg (by omega), if_neg (by omega), blobStream, if_pos hi, if_neg (by omega), if_neg (by omega)]
    exact .inl rfl
  | interrupted _ ih =>
    intro got size intr hi h1 h2
    rw [blobStream, if_neg (by omega), if_neg (by omega)]
    exact ih got _ true (.inl rfl) h1 h2
  | @piece b bs rs rest h ih =>
    intro got size intr hi h1 h2
    rw [List.length_append] at h1 h2
    rw [blobStream, if_neg (by simp)]
    split
    · exact .inr rfl
    · rw [if_neg (by omega), if_neg (by omega)]
      refine ih _ _ _ (hi.imp_right fun hm => ?_) (by rw [List.length_append]; omega) (by rw [List.length_append]; omega)
      rcases List.mem_cons.1 hm with e | hm
      · cases e
      · exact hm

/-- **C145 is false** of streams: once a call was interrupted, at any time, `FileToBlob` never returns the stream: `errno` still is `EINTR` at the end of the
stream, and it goes on reading (or has written outside its memory before). The same if `errno` was left so by something else. -/
theorem C145_interrupted_violated (kind : FileKind) (hm : kind.missing = false) (hs : kind.stream = true) (extent : Nat) (reads : List FileRead) (contents : List Byte) (intr : Bool) (h : Delivers reads contents)
    (hi : intr = true ∨ FileRead.interrupted ∈ reads) (hl : contents.length < 2 ^ 63) (he : contents.length < extent) :
    fileToBlob kind extent reads intr = .forever ∨ fileToBlob kind extent reads intr = .overrun := by
  have hq : quantumOf kind.size ≤ 8192 := by unfold quantumOf; split <;> omega
  rw [fileToBlob, if_neg (by simp [hm]), if_pos hs]
  exact stream_stuck h [] _ intr hi (by rw [show (if 0 < kind.size then min kind.size wizardMaxBufferExtent else wizardMaxBufferExtent) = quantumOf kind.size from rfl]; simp [sizeMax]; omega) (by simpa using he)

example : fileToBlob { stream := true, size := 0 } 100 [.interrupted, .data [1], .ended] false = .forever := by
  simp [fileToBlob, blobStream, wizardMaxBufferExtent, sizeMax]

/-- **C145 is false** of streams: if reading fails, what was read before is returned as if it were all, whatever it is, and nothing is reported. -/
theorem C145_failed_violated (a : List Byte) (rs : List FileRead) (extent : Nat) (intr : Bool) (ha : 0 < a.length ∧ a.length ≤ 8192) (he : a.length < extent) :
    fileToBlob { stream := true, size := 0 } extent (.data a :: .failed :: rs) intr = .blob a := by
  have ha' : a ≠ [] := fun e => by rw [e] at ha; simp at ha
  rw [fileToBlob, if_neg (by simp), if_pos rfl]
  simp only [Nat.lt_irrefl, if_false, wizardMaxBufferExtent]
  have hsm : sizeMax = 18446744073709551616 := by unfold sizeMax; decide
  rw [blobStream, if_neg (by simp [ha']), if_neg (by simp; omega), if_neg (by simp; omega), if_neg (by simp; omega), blobStream, List.nil_append, List.take_of_length_le (by omega)]

end Wizard.Props

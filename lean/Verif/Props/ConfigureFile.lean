import Verif.Model.ConfigureFile
import Verif.Props.FileBlob
/-! C145 for the files of settings, and for files that become shorter. -/
namespace Wizard.Props
open Wizard Wizard.Spec.FileBlob

/-- **C145** (partial: files whose end can be found).  A file of settings is read as a whole, mapped or in pieces of any sizes with interruptions anywhere; if it cannot be opened, or its end
cannot be found, nothing is returned. -/
theorem C145_configure_partial (kind : FileKind) (contents : List Byte) (hl : contents.length = kind.size) (reads : List FileRead) (intr : Bool)
    (h : kind.map = some contents ∨ (kind.map = none ∧ Delivers reads contents)) :
    configureFile kind reads intr = if kind.missing = true ∨ kind.stream = true then .null else .blob contents := by
  unfold configureFile
  split
  · rename_i hm; rw [if_pos (.inl hm)]
  · rename_i hm
    split
    · rename_i hs; rw [if_pos (.inr hs)]
    · rename_i hs
      rw [if_neg (fun q => q.elim hm hs)]
      rcases h with h | ⟨h, hd⟩
      · simp only [h]
        rw [← hl, List.take_length]
      · simp only [h]
        exact file_read hd [] intr (by simpa using hl)

/-- **C145** (partial: no interruptions).  A file of settings that turns out to be shorter than it was is not returned; nor is one that cannot be read to its end, whatever was interrupted. -/
theorem C145_configure_short_partial (kind : FileKind) (hp : kind.map = none) (reads rs : List FileRead) (contents : List Byte) (hl : contents.length < kind.size) (h : Delivers reads contents) :
    (Calm reads → configureFile kind reads false = .null) ∧ ∀ intr, FileRead.ended ∉ reads → configureFile kind (reads ++ .failed :: rs) intr = .null := by
  unfold configureFile
  constructor
  · intro hc
    split
    · rfl
    · split
      · rfl
      · simp only [hp]
        exact file_short h hc [] (by simpa using hl)
  · intro intr he
    split
    · rfl
    · split
      · rfl
      · simp only [hp]
        exact file_fails h he [] intr (by simpa using hl)

theorem file_stuck {length : Nat} {reads : List FileRead} {contents : List Byte} (h : Delivers reads contents) :
    ∀ (got : List Byte) (intr : Bool), (intr = true ∨ FileRead.interrupted ∈ reads) → got.length + contents.length < length → blobRead length reads got intr = .forever := by
  induction h with
  | done =>
    intro got intr hi hl
    have hi : intr = true := hi.resolve_right (by simp)
    simp only [List.length_nil, Nat.add_zero] at hl
    rw [blobRead, if_neg (by omega), if_pos hi]
  | ended =>
    intro got intr hi hl
    have hi : intr = true := hi.resolve_right (by simp)
    simp only [List.length_nil, Nat.add_zero] at hl
    rw [blobRead, if_neg (by omega), if_pos hi, blobRead, if_neg (by omega), if_pos hi]
  | interrupted _ ih =>
    intro got intr _ hl
    rw [blobRead, if_neg (by omega)]
    exact ih got true (.inl rfl) hl
  | @piece b bs rs rest h ih =>
    intro got intr hi hl
    rw [List.length_append] at hl
    rw [blobRead, if_neg (by omega), if_neg (by simp), if_neg (by omega)]
    refine ih _ _ (hi.imp_right fun hm => ?_) (by rw [List.length_append]; omega)
    rcases List.mem_cons.1 hm with e | hm
    · cases e
    · exact hm

/-- **C145 is false** of files that become shorter while they are read, if a call was interrupted before, at any time, or `errno` was left so: neither `FileToBlob` nor
`ConfigureFileToStringInfo` ever returns, as the end of the file does not set `errno`. -/
theorem C145_shorter_violated (kind : FileKind) (hm : kind.missing = false) (hs : kind.stream = false) (hp : kind.map = none) (extent : Nat) (reads : List FileRead) (contents : List Byte) (intr : Bool)
    (h : Delivers reads contents) (hi : intr = true ∨ FileRead.interrupted ∈ reads) (hl : contents.length < min kind.size extent) :
    fileToBlob kind extent reads intr = .forever ∧ configureFile kind reads intr = .forever := by
  constructor
  · rw [fileToBlob, if_neg (by simp [hm]), if_neg (by simp [hs])]
    simp only [hp]
    exact file_stuck h [] intr hi (by simpa using hl)
  · rw [configureFile, if_neg (by simp [hm]), if_neg (by simp [hs])]
    simp only [hp]
    exact file_stuck h [] intr hi (by simp; omega)

example : configureFile { stream := false, size := 3 } [.data [1], .interrupted, .data [2, 3]] false = .blob [1, 2, 3] :=
  C145_configure_partial { stream := false, size := 3 } [1, 2, 3] rfl _ _ (.inr ⟨rfl, .piece (.interrupted (.piece .done))⟩)

example : configureFile { stream := false, size := 3 } [.data [1], .interrupted, .ended] false = .forever :=
  (C145_shorter_violated _ rfl rfl rfl 100 _ [1] _ (.piece (.interrupted .ended)) (.inr (by simp)) (by decide)).2

end Wizard.Props

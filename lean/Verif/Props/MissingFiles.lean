import Verif.Props.ProgramEffects
/-! C173: files that are not there. -/
namespace Wizard.Props
open Wizard Wizard.Spec.Command

/-- **C173**: a run of `encipher` whose plaintext is not there fails and changes no file, whatever the options, the key ring and the ciphertext are. -/
theorem C173_encipher_missing (kit : Kit) (run : Run) (hcj : run.command.junk.length = 4096) (gs : List Given) (hok : ∀ g ∈ gs, g.OK run.command)
    (p c : List Byte) (hfiles : gs.filterMap Given.file? = [p, c]) (files : Files) (hx : files p = none) :
    runEncipher kit run (gs.flatMap Given.words) files = .ok (false, files) := by
  obtain ⟨st, a1, _⟩ := C154_options_partial run.command hcj kit.version gs hok p c hfiles
  unfold runEncipher
  rw [a1, Res.ok_bind]
  show encipherFiles kit run st p c files = _
  unfold encipherFiles
  rw [hx]

/-- **C173**: so does a run of `decipher` whose ciphertext is not there. -/
theorem C173_decipher_missing (kit : Kit) (run : Run) (hcj : run.command.junk.length = 4096) (gs : List Given) (hok : ∀ g ∈ gs, g.OK run.command)
    (c q : List Byte) (hfiles : gs.filterMap Given.file? = [c, q]) (files : Files) (hx : files c = none) :
    runDecipher kit run (gs.flatMap Given.words) files = .ok (false, files) := by
  obtain ⟨st, a1, _⟩ := C154_options_partial run.command hcj kit.version gs hok c q hfiles
  unfold runDecipher
  rw [a1, Res.ok_bind]
  show decipherFiles kit run st c q files = _
  unfold decipherFiles
  rw [hx]

/-- **C173** (violated) A run of `decipher` whose file of properties is not there fails, and has emptied its output. -/
theorem C173_properties_missing_violated (kit : Kit) (run : Run) (hcj : run.command.junk.length = 4096) (gs : List Given) (hok : ∀ g ∈ gs, g.OK run.command)
    (c q pr : List Byte) (hfiles : gs.filterMap Given.file? = [c, q]) (hpr : last Given.properties? gs = some pr) (hq : pr ≠ q) (files : Files) (x old : List Byte) (hx : files c = some x)
    (hmiss : files pr = none) (hold : files q = some old) (hne : old ≠ []) :
    ∃ files1, runDecipher kit run (gs.flatMap Given.words) files = .ok (false, files1) ∧ files1 q = some [] ∧ files1 q ≠ files q := by
  refine ⟨withFile files q (some []), ?_, withFile_self _ _ _, by rw [withFile_self, hold]; simpa using hne.symm⟩
  obtain ⟨st, a1, _, _, _, a5, _⟩ := C154_options_partial run.command hcj kit.version gs hok c q hfiles
  unfold runDecipher
  rw [a1, Res.ok_bind]
  show decipherFiles kit run st c q files = _
  unfold decipherFiles
  rw [hx, a5, hpr]
  simp only [Option.getD_some]
  rw [withFile_other _ hq, hmiss]

/-- There are such runs: the plaintext of the example has been removed. -/
example : runEncipher kitExample runExample (givenExample4.flatMap Given.words) (withFile filesExample (ascText "plain.txt") none) = .ok (false, withFile filesExample (ascText "plain.txt") none) :=
  C173_encipher_missing kitExample runExample List.length_replicate givenExample4 given4_ok (ascText "plain.txt") (ascText "cipher.wiz") rfl _ (withFile_self _ _ _)

/-- And the ciphertext. -/
example : runDecipher kitExample runExample (givenExample5.flatMap Given.words) (withFile filesExample (ascText "cipher.wiz") none) = .ok (false, withFile filesExample (ascText "cipher.wiz") none) :=
  C173_decipher_missing kitExample runExample List.length_replicate givenExample5 given5_ok (ascText "cipher.wiz") (ascText "out.txt") rfl _ (withFile_self _ _ _)

/-- And the file of properties, while the output was there. -/
example : ∃ files1, runDecipher kitExample runExample ((.properties (ascText "gone.xml") :: givenExample5).flatMap Given.words)
    (withFile (withFile (withFile filesExample (ascText "cipher.wiz") (some [1])) (ascText "out.txt") (some [7, 8])) (ascText "gone.xml") none) = .ok (false, files1) ∧ files1 (ascText "out.txt") = some [] := by
  obtain ⟨f, h1, h2, _⟩ := C173_properties_missing_violated kitExample runExample List.length_replicate (.properties (ascText "gone.xml") :: givenExample5)
    (fun g hg => (List.mem_cons.1 hg).elim (fun e => e ▸ trivial) (given5_ok g)) (ascText "cipher.wiz") (ascText "out.txt") (ascText "gone.xml") rfl rfl (by decide +kernel)
    (withFile (withFile (withFile filesExample (ascText "cipher.wiz") (some [1])) (ascText "out.txt") (some [7, 8])) (ascText "gone.xml") none) [1] [7, 8]
    (by rw [withFile_other _ (by decide +kernel), withFile_other _ (by decide +kernel), withFile_self]) (withFile_self _ _ _) (by rw [withFile_other _ (by decide +kernel), withFile_self]) (by simp)
  exact ⟨f, h1, h2⟩

end Wizard.Props

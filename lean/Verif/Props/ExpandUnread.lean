import Verif.Props.Expand
/-! Patterns in directories that cannot be read. -/
namespace Wizard.Props
open Wizard Wizard.Spec Wizard.Spec.Opt Wizard.Spec.Path Wizard.Spec.Expand

/-- **C175** A pattern, of any form, whose directory cannot be read or does not exist stays as it is written. -/
theorem C175_unread (env : ExpandEnv) (hs : Sane env) (h t : List Byte) (hc : Common (under h t)) (hlast : t.getLast? ≠ some (asc ']')) (hone : asc '/' ∉ t) (ht : t ≠ [])
    (htil : h.head? ≠ some (asc '~')) (hlist : env.names (if h = [] then env.cwd else h) = none) : expandFilenames env [under h t] = .ok [under h t] := by
  have hun : under h t ≠ [] := by
    obtain ⟨s, c, w, e, _⟩ := hc.form
    rw [e]; simp
  obtain ⟨⟨m1, g1, t1, _⟩, ⟨m2, g2, t2, _⟩⟩ := argument_parts hs (h := h) (t := t) hun (fun c hx => let q := hc.plain c hx; ⟨q.2.2.1, q.2.2.2⟩) hc.short hlast hone ht
  have hx : expandFilename env h = h := by
    cases h with
    | nil => rfl
    | cons c r =>
      have hc : c ≠ asc '~' := fun e => htil (by rw [e]; rfl)
      unfold expandFilename
      exact if_pos hc
  refine expand_one hs hc ?_
  unfold expandArgument
  split
  · rfl
  · rw [g2, Res.ok_bind, t2]
    split
    · rfl
    · rw [g1, Res.ok_bind, t1, hx]
      unfold listFiles
      simp only [hlist, Res.ok_bind]

-- `none/*.c`, where there is no directory `none`
example : expandFilenames exEnv [ascText "none/*.c"] = .ok [ascText "none/*.c"] := by
  have e : under (ascText "none") (ascText "*.c") = ascText "none/*.c" := by decide +kernel
  rw [← e]
  refine C175_unread exEnv ex_sane _ _ ?_ (by decide +kernel) (by decide +kernel) (by decide +kernel) (by decide +kernel) (by decide +kernel)
  rw [e]
  exact ⟨⟨[], asc 'n', ascText "one/*.c", by decide +kernel, .inl rfl, by decide, by decide, by decide⟩, by decide +kernel, by decide +kernel⟩

end Wizard.Props

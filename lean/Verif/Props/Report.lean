import Verif.Spec.Report
import Verif.Props.Exception
import Verif.Lemmas.Packet
/-! C171: reported exceptions are recorded with their place, and logged; the log is told the severity of the report before. -/
namespace Wizard.Props
open Wizard Wizard.Spec.Exc Wizard.Spec.Report

theorem short_message {r : Report} (h : Short r) : inMessage r.reason = r.reason ∧ reportMessage r.reason r = told r := by
  have hpe : wizardPathExtent = 4096 := rfl
  have h2 := h.2
  refine ⟨List.take_of_length_le ?_, List.take_of_length_le ?_⟩
  · have : r.reason.length ≤ (told r).length := by unfold told; simp only [List.length_append]; omega
    omega
  · show (told r).length ≤ _
    omega

theorem excNew_ok : ExcOK acquireExceptionInfo := ⟨rfl, fun _ hp => (by cases hp), fun _ hp => (by cases hp)⟩

/-- One report. -/
theorem report_step {fold : Byte → Byte} (hf : FoldOK fold) {x : ExcInfo} (hx : ExcOK x) {r : Report} (h : Short r) :
    ∃ y, reportException fold x r = .ok (y, ⟨kindOf (reported x.log), r.file, r.function, r.line, r.reason⟩) ∧ ExcOK y ∧ y.log = record fold x.log (elem r) := by
  obtain ⟨h1, h2⟩ := short_message h
  obtain ⟨y, e, hy, hl⟩ := throw_spec hf hx (e := elem r) ⟨fun s hs => by cases hs; exact h.1, fun s hs => by cases hs⟩
  refine ⟨y, ?_, hy, hl⟩
  unfold reportException
  simp only [h1, h2]
  have : throwException fold x ⟨r.severity, some (told r), none⟩ = .ok y := e
  rw [this, Res.ok_bind]
  rw [← hx.severity]
  rfl

theorem reported_record (fold : Byte → Byte) (l : List ExcElem) (e : ExcElem) : reported (record fold l e) = e.severity := by
  unfold record
  cases hl : l.getLast? with
  | none => rfl
  | some p =>
    simp only []
    split
    · rename_i hs
      unfold reported
      rw [hl]
      exact hs.1
    · simp [reported]

/-- The calls of the log: each is told the severity of the report before. -/
def loggedAfter : Nat → List Report → List LoggedEvent
  | _, [] => []
  | s, r :: rs => ⟨kindOf s, r.file, r.function, r.line, r.reason⟩ :: loggedAfter r.severity rs

/-- **C171** Any number of reports: each is recorded, unless it is the one before again, with its severity, its reason and its place,
and each is given to the log once, in order, with its reason and place.  What is missing is the kind of event, which is that of
the report before. -/
theorem C171_history_partial {fold : Byte → Byte} (hf : FoldOK fold) (rs : List Report) (h : ∀ r ∈ rs, Short r) :
    ∃ y, reportAll fold acquireExceptionInfo rs = .ok (y, loggedAfter 0 rs) ∧ y.log = (rs.map elem).foldl (record fold) [] ∧ y.severity = reported y.log := by
  have key : ∀ (rs : List Report) x, ExcOK x → (∀ r ∈ rs, Short r) →
      ∃ y, reportAll fold x rs = .ok (y, loggedAfter (reported x.log) rs) ∧ ExcOK y ∧ y.log = (rs.map elem).foldl (record fold) x.log := by
    intro rs
    induction rs with
    | nil => intro x hx _; exact ⟨x, rfl, hx, rfl⟩
    | cons r rs ih =>
      intro x hx hr
      obtain ⟨y, e, hy, hl⟩ := report_step hf hx (hr r List.mem_cons_self)
      obtain ⟨z, e2, hz, hl2⟩ := ih y hy (fun q hq => hr q (List.mem_cons_of_mem _ hq))
      refine ⟨z, ?_, hz, ?_⟩
      · unfold reportAll
        rw [e, Res.ok_bind]
        simp only []
        rw [e2, Res.ok_bind, hl, reported_record]
        rfl
      · rw [hl2, hl]; rfl
  obtain ⟨y, e, hy, hl⟩ := key rs acquireExceptionInfo excNew_ok h
  exact ⟨y, e, hl, hy.severity⟩

/-- **C171** (violated) An error that is reported to a new exception is logged as a warning, and a warning that is reported after an
error is logged as an exception.  So with the event mask `exception` the first error is not in the log. -/
theorem C171_kind_violated {fold : Byte → Byte} (hf : FoldOK fold) (r q : Report) (hr : Short r) (hq : Short q) (he : 400 ≤ r.severity) (hw : q.severity < 400) :
    ∃ y a b, reportAll fold acquireExceptionInfo [r, q] = .ok (y, [a, b]) ∧
      a.kind = .warning ∧ (logged r).kind = .exception ∧ b.kind = .exception ∧ (logged q).kind = .warning := by
  obtain ⟨y, e, _, _⟩ := C171_history_partial hf [r, q] (fun x hx => by
    rcases List.mem_cons.mp hx with rfl | hx
    · exact hr
    · rw [List.mem_singleton] at hx; rw [hx]; exact hq)
  refine ⟨y, _, _, e, rfl, ?_, ?_, ?_⟩
  · exact if_pos he
  · exact if_pos he
  · exact if_neg (by show ¬400 ≤ q.severity; omega)

theorem last_cut (c : Byte) (a a' b b' : List Byte) (h : c ∉ b) (h' : c ∉ b') (e : a ++ c :: b = a' ++ c :: b') : a = a' ∧ b = b' := by
  have key : ∀ (x x' y y' : List Byte), c ∉ x → c ∉ x' → x ++ c :: y = x' ++ c :: y' → x = x' ∧ y = y' := by
    intro x
    induction x with
    | nil =>
      intro x' y y' _ hx e
      cases x' with
      | nil => simpa using e
      | cons d x' =>
        simp only [List.nil_append, List.cons_append, List.cons.injEq] at e
        exact absurd List.mem_cons_self (e.1 ▸ hx)
    | cons d x ih =>
      intro x' y y' hx hx' e
      cases x' with
      | nil =>
        simp only [List.nil_append, List.cons_append, List.cons.injEq] at e
        exact absurd List.mem_cons_self (e.1 ▸ hx)
      | cons d' x' =>
        simp only [List.cons_append, List.cons.injEq] at e
        obtain ⟨h1, h2⟩ := ih x' y y' (fun hm => hx (List.mem_cons_of_mem _ hm)) (fun hm => hx' (List.mem_cons_of_mem _ hm)) e.2
        exact ⟨by rw [e.1, h1], h2⟩
  have e' := congrArg List.reverse e
  simp only [List.reverse_append, List.reverse_cons, List.append_assoc, List.singleton_append] at e'
  obtain ⟨h1, h2⟩ := key _ _ _ _ (by simpa using h) (by simpa using h') e'
  exact ⟨by simpa using h2, by simpa using h1⟩

/-- **C171** What is recorded tells the reason, the file, the function and the line: two reports with the same message are of the same
reason and the same place. -/
theorem C171_place (r q : Report) (hr : Place r) (hq : Place q) (h : told r = told q) :
    r.reason = q.reason ∧ r.file = q.file ∧ r.function = q.function ∧ r.line = q.line := by
  have hslash : ascText "/" = [asc '/'] := by decide +kernel
  have hat : ascText " @ " = [asc ' ', asc '@'] ++ [asc ' '] := by decide +kernel
  have hd : ∀ n, asc '/' ∉ decText n := by
    intro n hm
    have h1 := (decText_bytes n _ hm).1
    exact absurd h1 (by decide +kernel)
  unfold told at h
  rw [hslash, hat] at h
  simp only [List.append_assoc] at h
  have h1 := last_cut (asc '/') (r.reason ++ ([asc ' ', asc '@'] ++ ([asc ' '] ++ (r.file ++ ([asc '/'] ++ r.function)))))
    (q.reason ++ ([asc ' ', asc '@'] ++ ([asc ' '] ++ (q.file ++ ([asc '/'] ++ q.function))))) (decText r.line) (decText q.line) (hd _) (hd _)
    (by simpa using h)
  have h2 := last_cut (asc '/') (r.reason ++ ([asc ' ', asc '@'] ++ ([asc ' '] ++ r.file))) (q.reason ++ ([asc ' ', asc '@'] ++ ([asc ' '] ++ q.file)))
    r.function q.function hr.2.1 hq.2.1 (by simpa using h1.1)
  have h3 := last_cut (asc ' ') (r.reason ++ [asc ' ', asc '@']) (q.reason ++ [asc ' ', asc '@']) r.file q.file hr.2.2 hq.2.2 (by simpa using h2.1)
  refine ⟨(List.append_inj' h3.1 rfl).1, h3.2, h2.2, ?_⟩
  have := congrArg (digitsVal 10) h1.2
  rwa [decText_val, decText_val] at this

/-- **C171** (violated) A reason that fills the buffer leaves no room for the place: of two reports with such a reason from any two places
only the first is recorded, without its place, and without the end of its reason. -/
theorem C171_long_violated {fold : Byte → Byte} (hf : FoldOK fold) (r q : Report) (h0 : (0 : Byte) ∉ r.reason) (hl : 4095 ≤ r.reason.length)
    (hs : q.severity = r.severity) (hq : q.reason = r.reason) :
    ∃ y calls, reportAll fold acquireExceptionInfo [r, q] = .ok (y, calls) ∧ y.log = [⟨r.severity, some (r.reason.take 4095), none⟩] := by
  have hcut : ∀ p : Report, p.reason = r.reason → reportMessage (inMessage p.reason) p = r.reason.take 4095 := by
    intro p hp
    rw [hp]
    show List.take 4095 (r.reason.take 4095 ++ ascText " @ " ++ p.file ++ ascText "/" ++ p.function ++ ascText "/" ++ decText p.line) = _
    simp only [List.append_assoc]
    rw [List.take_append_of_le_length (by simp; omega), List.take_take, Nat.min_self]
  have hstep : ∀ (p : Report) (x : ExcInfo), p.reason = r.reason → p.severity = r.severity → ExcOK x →
      ∃ y c, reportException fold x p = .ok (y, c) ∧ ExcOK y ∧ y.log = record fold x.log ⟨r.severity, some (r.reason.take 4095), none⟩ := by
    intro p x hp hps hx
    obtain ⟨y, e, hy, hl⟩ := throw_spec hf hx (e := ⟨r.severity, some (r.reason.take 4095), none⟩)
      ⟨fun s hs => by cases hs; exact fun hm => h0 (List.mem_of_mem_take hm), fun s hs => by cases hs⟩
    refine ⟨y, ⟨if x.severity ≥ errorException then .exception else .warning, p.file, p.function, p.line, inMessage p.reason⟩, ?_, hy, hl⟩
    unfold reportException
    simp only [hcut p hp, hps]
    rw [e, Res.ok_bind]
  obtain ⟨y, c, e, hy, hl1⟩ := hstep r acquireExceptionInfo rfl rfl excNew_ok
  obtain ⟨z, d, e2, _, hl2⟩ := hstep q y hq hs hy
  refine ⟨z, [c, d], ?_, ?_⟩
  · unfold reportAll
    rw [e, Res.ok_bind]
    unfold reportAll
    simp only []
    rw [e2, Res.ok_bind]
    rfl
  · rw [hl2, hl1]
    show record fold [⟨r.severity, some (r.reason.take 4095), none⟩] _ = _
    unfold record
    simp only [List.getLast?_singleton]
    rw [if_pos ⟨rfl, rfl, rfl⟩]

/-- A report as the keyring makes it. -/
def demoReport : Report := ⟨450, ascText "file is corrupt `ring'", ascText "keyring.c", ascText "ExportKeyringKey", 321⟩

example : Short demoReport ∧ Place demoReport ∧ told demoReport = ascText "file is corrupt `ring' @ keyring.c/ExportKeyringKey/321" ∧ 400 ≤ demoReport.severity := by
  have h : told demoReport = ascText "file is corrupt `ring' @ keyring.c/ExportKeyringKey/321" := by decide +kernel
  refine ⟨⟨?_, ?_⟩, ⟨by decide +kernel, by decide +kernel, by decide +kernel⟩, h, by decide⟩
  · rw [h]; decide +kernel
  · rw [h]; decide +kernel

/-- A long reason without NUL. -/
example : ∃ r : Report, (0 : Byte) ∉ r.reason ∧ 4095 ≤ r.reason.length :=
  ⟨⟨400, List.replicate 5000 65, [], [], 0⟩, fun h => absurd (List.eq_of_mem_replicate h) (by decide), by show 4095 ≤ (List.replicate 5000 65).length; rw [List.length_replicate]; decide⟩

end Wizard.Props

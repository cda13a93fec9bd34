import Verif.Spec.FatalError
import Verif.Props.Report

/-! C180: fatal errors. -/
namespace Wizard.Props
open Wizard Wizard.Spec.Report Wizard.Spec.FatalError

namespace FatalError

theorem status_eq : ∀ d < 16, ∀ e < 8, (d <<< 3 ||| e) % 256 = 8 * d + e := by decide +kernel

/-- A new exception has what was reported. -/
theorem report_new (fold : Byte → Byte) (r : Report) :
    reportException fold acquireExceptionInfo r = .ok ((⟨r.severity, some (reportMessage (inMessage r.reason) r), none,
      [⟨r.severity, some (reportMessage (inMessage r.reason) r), none⟩]⟩ : ExcInfo), ⟨.warning, r.file, r.function, r.line, inMessage r.reason⟩) := rfl

theorem catch_silent (env : FatalEnv) (hs : Handlers) (r : Report) (h : r.severity = 0) : catchWizardException env hs r = .ok ([], none) := by
  rw [catchWizardException, report_new, Res.ok_bind]
  simp only [h]
  rfl

theorem catch_fatal (env : FatalEnv) (hs : Handlers) (r : Report) (h : 700 ≤ r.severity) (hr : Short r) :
    catchWizardException env hs r = .ok (callAll env hs [(.fatal, elem r)]) := by
  obtain ⟨h1, h2⟩ := short_message hr
  rw [catchWizardException, report_new, Res.ok_bind, h1, h2]
  have hw : ¬(r.severity ≥ warningException ∧ r.severity < errorException) := fun q => absurd q.2 (by unfold errorException; omega)
  have he : ¬(r.severity ≥ errorException ∧ r.severity < fatalErrorException) := fun q => absurd q.2 (by unfold fatalErrorException; omega)
  have hf : r.severity ≥ fatalErrorException := h
  simp only [catchLoop, hw, he, hf, if_true, if_false]
  rfl

end FatalError

open FatalError

/-- **C180** (partial: it is not told, see `C180_silent_violated`).  A fatal error of the toolkit ends the program, whatever handlers are set, with a status that tells the domain and the error; it is zero for running out of memory in the domain
of random numbers only, which no place of the source reports. -/
theorem C180_status_partial (env : FatalEnv) (hs : Handlers) (d e : Nat) (hd : d < 16) (he : e < 8) (file function : List Byte) (ln : Nat) :
    ∃ seen status, throwWizardFatalError env hs d e file function ln = .ok (seen, status) ∧ Tells status d e ∧ (status = 0 ↔ d = 0 ∧ e = 0) ∧
      ∀ p ∈ fatalPlaces, (p.1 <<< 3 ||| p.2) % 256 ≠ 0 := by
  refine ⟨[], 8 * d + e, ?_, ⟨by omega, by omega⟩, by omega, by decide +kernel⟩
  rw [throwWizardFatalError, catch_silent env hs _ rfl, Res.ok_bind]
  simp only [Option.getD_none, status_eq d hd e he]

/-- **C180** (violated).  A fatal error of the toolkit is never told: it is thrown with the severity of no exception, so that no handler is called, neither the program's nor the standard one,
and nothing is displayed, whatever the domain, the error and the handlers. -/
theorem C180_silent_violated (env : FatalEnv) (hs : Handlers) (d e : Nat) (file function : List Byte) (ln : Nat) :
    ∃ status, throwWizardFatalError env hs d e file function ln = .ok ([], status) := by
  refine ⟨(d <<< 3 ||| e) % 256, ?_⟩
  rw [throwWizardFatalError, catch_silent env hs _ rfl, Res.ok_bind]
  rfl

/-- **C180** (violated).  Running out of memory in the SHA-2 digests, the compressors `zip` and `lzma` and the cipher Serpent is reported with a severity in the place of the domain: the status
tells the domain of parsing for the compressors (which are of the domain of entropy, 2), and no domain at all for digests and Serpent. -/
theorem C180_domain_violated (env : FatalEnv) (hs : Handlers) (file function : List Byte) (ln : Nat) :
    (415, 0) ∈ fatalPlaces ∧ (425, 0) ∈ fatalPlaces ∧ (435, 0) ∈ fatalPlaces ∧
    (∃ s, throwWizardFatalError env hs 425 0 file function ln = .ok ([], s) ∧ Tells s 9 0 ∧ ¬Tells s 2 0) ∧
    (∃ s, throwWizardFatalError env hs 415 0 file function ln = .ok ([], s) ∧ ∀ d < 16, ∀ e, ¬Tells s d e) ∧
    ∃ s, throwWizardFatalError env hs 435 0 file function ln = .ok ([], s) ∧ ∀ d < 16, ∀ e, ¬Tells s d e := by
  have key : ∀ d e, throwWizardFatalError env hs d e file function ln = .ok ([], (d <<< 3 ||| e) % 256) := by
    intro d e
    rw [throwWizardFatalError, catch_silent env hs _ rfl, Res.ok_bind]
    rfl
  refine ⟨by decide, by decide, by decide, ⟨72, key 425 0, ⟨by decide, by decide⟩, fun h => absurd h.1 (by decide)⟩, ⟨248, key 415 0, ?_⟩, ⟨152, key 435 0, ?_⟩⟩
  · intro d hd e h
    have : 248 / 8 = d := h.1
    omega
  · intro d hd e h
    have : 152 / 8 = d := h.1
    omega

/-- **C180** (partial: messages that fit 4095 bytes).  A fatal exception is told once and ends the program, whatever handlers are set: the standard handler displays the client's name, the message and its place, and the status is not
zero; a handler of the program is called once with the message, and if it returns the program ends with 127; without a handler it ends with 127. -/
theorem C180_told_partial (env : FatalEnv) (hs : Handlers) (r : Report) (hf : IsFatal r.severity) (hr : Short r) :
    ∃ seen status, throwFatalException env hs r = .ok (seen, status) ∧
      (hs.fatal = .standard → seen = [.printed (line env.client r)] ∧ status = r.severity % 256 ∧ status ≠ 0) ∧
      (∀ n, hs.fatal = .own n → seen = [.called .fatal n (elem r)] ∧ status = ((env.ends n (elem r)).map (· % 256)).getD 127) ∧
      (hs.fatal = .null → seen = [] ∧ status = 127) := by
  have h := catch_fatal env hs r hf.1 hr
  rw [throwFatalException, h, Res.ok_bind]
  have hb := hf.2.1
  have ha := hf.1
  have h5 := hf.2.2
  cases hk : hs.fatal with
  | null => exact ⟨_, _, rfl, nofun, nofun, fun _ => by simp [callAll, callHandler, Handlers.get, hk]⟩
  | own n =>
    refine ⟨_, _, rfl, nofun, fun m hm => ?_, nofun⟩
    cases hm
    cases hx : env.ends n (elem r) <;> simp [callAll, callHandler, Handlers.get, hk, hx]
  | standard =>
    refine ⟨_, _, rfl, fun _ => ?_, nofun, nofun⟩
    have hc : callAll env hs [(.fatal, elem r)] = ([.printed (line env.client r)], some (r.severity % 256)) := by
      have e : handlerText env.client (told r) none = line env.client r := by
        simp only [handlerText, line, List.append_nil]
        rfl
      simp [callAll, callHandler, Handlers.get, hk, elem, e]
    rw [hc]
    refine ⟨rfl, rfl, ?_⟩
    show r.severity % 256 ≠ 0
    omega

namespace FatalError

/-- The handler that was set last, or the one before. -/
def lastOr (d : Installed) (k : Handler) (cs : List (Handler × Installed)) : Installed :=
  match (cs.filter fun c => c.1 = k).getLast? with
  | none => d
  | some c => c.2

theorem lastOr_cons (d : Installed) (k : Handler) (c : Handler × Installed) (cs : List (Handler × Installed)) :
    lastOr d k (c :: cs) = if c.1 = k then lastOr c.2 k cs else lastOr d k cs := by
  unfold lastOr
  by_cases h : c.1 = k
  · rw [if_pos h, List.filter_cons_of_pos (by simpa using h), List.getLast?_cons]
    cases (cs.filter fun c => c.1 = k).getLast? <;> rfl
  · rw [if_neg h, List.filter_cons_of_neg (by simpa using h)]

theorem set_get (k j : Handler) (x : Installed) (hs : Handlers) : (setHandler j x hs).2.get k = (if j = k then x else hs.get k) ∧ (setHandler j x hs).1 = hs.get j := by
  cases k <;> cases j <;> exact ⟨rfl, rfl⟩

theorem sets (cs : List (Handler × Installed)) (hs : Handlers) : (∀ k, (setHandlers cs hs).2.get k = lastOr (hs.get k) k cs) ∧
    (setHandlers cs hs).1.length = cs.length ∧ ∀ i c, cs[i]? = some c → (setHandlers cs hs).1[i]? = some (lastOr (hs.get c.1) c.1 (cs.take i)) := by
  induction cs generalizing hs with
  | nil => exact ⟨fun _ => rfl, rfl, fun i c h => by simp at h⟩
  | cons c cs ih =>
    obtain ⟨h1, h2, h3⟩ := ih (setHandler c.1 c.2 hs).2
    refine ⟨fun k => ?_, congrArg (· + 1) h2, fun i b hb => ?_⟩
    · rw [lastOr_cons]
      refine (h1 k).trans ?_
      rw [(set_get k c.1 c.2 hs).1]
      split <;> rfl
    · cases i with
      | zero =>
        cases hb
        exact congrArg some (set_get c.1 c.1 c.2 hs).2
      | succ i =>
        rw [List.take_succ_cons, lastOr_cons]
        refine (h3 i b hb).trans ?_
        rw [(set_get b.1 c.1 c.2 hs).1]
        split <;> rfl

end FatalError

/-- **C180**.  After every history of calls of `SetErrorHandler`, `SetFatalErrorHandler` and `SetWarningHandler`, errors go to the handler of their kind that was set last; every call returns the
one that was set before. -/
theorem C180_handlers (cs : List (Handler × Installed)) : (∀ k, (setHandlers cs firstHandlers).2.get k = lastHandler k cs) ∧
    (setHandlers cs firstHandlers).1.length = cs.length ∧ ∀ i c, cs[i]? = some c → (setHandlers cs firstHandlers).1[i]? = some (lastHandler c.1 (cs.take i)) := by
  have h0 : ∀ k, firstHandlers.get k = .standard := fun k => by cases k <;> rfl
  obtain ⟨h1, h2, h3⟩ := sets cs firstHandlers
  refine ⟨fun k => (h1 k).trans (by rw [h0]; rfl), h2, fun i c hc => (h3 i c hc).trans (by rw [h0]; rfl)⟩

namespace FatalError

theorem client_from (names : List (Option (List Byte))) (c : List Byte) : setClientNames names c =
    match (names.filter fun n => n ≠ none ∧ n ≠ some []).getLast? with
    | some (some n) => n.take 4095
    | _ => c := by
  induction names generalizing c with
  | nil => rfl
  | cons n ns ih =>
    rw [setClientNames, ih]
    cases n with
    | none => rw [List.filter_cons_of_neg (by simp)]; rfl
    | some a =>
      by_cases ha : a = []
      · subst ha
        rw [List.filter_cons_of_neg (by simp)]; rfl
      · rw [List.filter_cons_of_pos (by simpa using ha), List.getLast?_cons]
        cases hg : (ns.filter fun n => n ≠ none ∧ n ≠ some []).getLast? with
        | none => exact if_neg ha
        | some b =>
          cases b with
          | none => exact absurd (List.mem_filter.1 (List.mem_of_getLast? hg)).2 (by simp)
          | some b => rfl

end FatalError

/-- **C180**.  After every history of calls of `SetClientName` the client's name is the last one that is not empty, as far as it fits. -/
theorem C180_client (names : List (Option (List Byte))) : setClientNames names (ascText "Wizard") = clientName names := client_from names _

/-- A program sets its own handler for fatal errors, and back again; a random device that cannot be read is told. -/
example : setHandlers [(.fatal, .own 3), (.error, .null), (.fatal, .standard)] firstHandlers = ([.standard, .standard, .own 3], ⟨.standard, .null, .standard⟩) ∧
    IsFatal 710 ∧ Short ⟨710, ascText "random device error", ascText "random.c", ascText "GatherTrueRandom", 555⟩ := by
  refine ⟨rfl, by unfold IsFatal; omega, ?_⟩
  unfold Short
  decide +kernel

end Wizard.Props

import Verif.Spec.Exception
import Verif.Props.Locale
/-! C52: the exception log. -/
namespace Wizard.Props
open Wizard Wizard.Spec.Exc

/-- Texts end at their first NUL. -/
def ExcElem.Text (e : ExcElem) : Prop := (∀ x ∈ e.reason, (0 : Byte) ∉ x) ∧ ∀ x ∈ e.description, (0 : Byte) ∉ x

/-- What holds of an exception at all times. -/
structure ExcOK (x : ExcInfo) : Prop where
  severity : x.severity = reported x.log
  reason : ∀ p, x.log.getLast? = some p → x.reason = p.reason ∧ x.description = p.description
  text : ∀ p ∈ x.log, ExcElem.Text p

theorem localeCompare_opt {fold : Byte → Byte} (hf : FoldOK fold) (a b : Option (List Byte)) (ha : ∀ x ∈ a, (0 : Byte) ∉ x)
    (hb : ∀ x ∈ b, (0 : Byte) ∉ x) : ∃ r, localeCompare fold a b = .ok r ∧ (r = 0 ↔ a.map (·.map fold) = b.map (·.map fold)) := by
  cases a with
  | none =>
    cases b with
    | none => exact ⟨0, rfl, by simp⟩
    | some b => exact ⟨-1, rfl, by simp⟩
  | some a =>
    cases b with
    | none => exact ⟨1, rfl, by simp⟩
    | some b =>
      obtain ⟨r, h1, _, _, h2⟩ := C06_compare_spec fold hf a b (ha a rfl) (hb b rfl)
      exact ⟨r, h1, by simpa using h2⟩

theorem excPush_ok {x : ExcInfo} (h : ExcOK x) {e : ExcElem} (he : ExcElem.Text e) : ExcOK (x.push e) := by
  have hl : (x.log ++ [e]).getLast? = some e := by simp
  refine ⟨?_, ?_, ?_⟩
  · show e.severity = reported (x.log ++ [e])
    unfold reported
    rw [hl]
  · intro p hp
    have hp : (x.log ++ [e]).getLast? = some p := hp
    rw [hl] at hp
    cases hp
    exact ⟨rfl, rfl⟩
  · intro p hp
    rcases List.mem_append.mp hp with hp | hp
    · exact h.text p hp
    · rw [List.mem_singleton] at hp
      rw [hp]; exact he

/-- One throw. -/
theorem throw_spec {fold : Byte → Byte} (hf : FoldOK fold) {x : ExcInfo} (h : ExcOK x) {e : ExcElem} (he : ExcElem.Text e) :
    ∃ y, throwException fold x e = .ok y ∧ ExcOK y ∧ y.log = record fold x.log e := by
  unfold throwException record
  cases hl : x.log.getLast? with
  | none =>
    have : x.log = [] := List.getLast?_eq_none_iff.mp hl
    refine ⟨_, rfl, excPush_ok h he, ?_⟩
    show x.log ++ [e] = [e]
    rw [this]; rfl
  | some p =>
    have hp := h.reason p hl
    have hpt := h.text p (List.mem_of_getLast? hl)
    simp only []
    by_cases hs : p.severity = e.severity
    · rw [if_pos hs]
      obtain ⟨r, r1, r2⟩ := localeCompare_opt hf p.reason e.reason hpt.1 he.1
      obtain ⟨d, d1, d2⟩ := localeCompare_opt hf p.description e.description hpt.2 he.2
      rw [hp.1, hp.2, r1, Res.ok_bind]
      by_cases hr : r = 0
      · rw [if_pos hr, d1, Res.ok_bind]
        by_cases hd : d = 0
        · rw [if_pos hd, if_pos (show same fold p e from ⟨hs, r2.mp hr, d2.mp hd⟩)]
          exact ⟨_, rfl, h, rfl⟩
        · rw [if_neg hd, if_neg (show ¬ same fold p e from fun hh => hd (d2.mpr hh.2.2))]
          exact ⟨_, rfl, excPush_ok h he, rfl⟩
      · rw [if_neg hr, if_neg (show ¬ same fold p e from fun hh => hr (r2.mpr hh.2.1))]
        exact ⟨_, rfl, excPush_ok h he, rfl⟩
    · rw [if_neg hs, if_neg (show ¬ same fold p e from fun hh => hs hh.1)]
      exact ⟨_, rfl, excPush_ok h he, rfl⟩

theorem inherit_spec {fold : Byte → Byte} (hf : FoldOK fold) : ∀ (l : List ExcElem) {x : ExcInfo}, ExcOK x → (∀ e ∈ l, ExcElem.Text e) →
    ∃ y, inheritException fold x l = .ok y ∧ ExcOK y ∧ y.log = l.foldl (record fold) x.log := by
  intro l
  induction l with
  | nil => intro x h _; exact ⟨x, rfl, h, rfl⟩
  | cons e l ih =>
    intro x h ht
    obtain ⟨y, e1, e2, e3⟩ := throw_spec hf h (ht e (List.mem_cons_self ..))
    obtain ⟨z, f1, f2, f3⟩ := ih e2 (fun q hq => ht q (List.mem_cons_of_mem _ hq))
    refine ⟨z, ?_, f2, ?_⟩
    · rw [inheritException, e1, Res.ok_bind, f1]
    · rw [f3, e3]; rfl

theorem excClear_ok (x : ExcInfo) : ExcOK (clearException x) :=
  ⟨rfl, (by intro p hp; simp [clearException] at hp), fun p hp => absurd hp List.not_mem_nil⟩

/-- A program starts with no exceptions. -/
def excStart : ExcWorld := ⟨fun _ => acquireExceptionInfo, []⟩

/-- The texts a history throws are texts, and no exception inherits from itself. -/
def ExcOp.Text : ExcOp → Prop
  | .throw _ e => ExcElem.Text e
  | .inherit k j => k ≠ j
  | _ => True

theorem catch_returns (sev : Nat) : ∀ (l : List ExcElem), (catchLoop (fun _ => false) sev l).2 = false := by
  intro l
  induction l with
  | nil => rfl
  | cons p ps ih =>
    rw [catchLoop]
    simp only [Bool.false_eq_true, if_false]
    split
    · exact ih
    · exact ih

theorem excStep_spec {fold : Byte → Byte} (hf : FoldOK fold) {exits : ExcElem → Bool} {w : ExcWorld} {s : Logs}
    (h : ∀ k, ExcOK (w.info k) ∧ (w.info k).log = s.log k) {op : ExcOp} (ht : ExcOp.Text op)
    (hc : ∀ k, op = .caught k → (catchLoop exits (w.info k).severity (w.info k).log).2 = false) :
    ∃ w', excStep fold exits w op = .ok w' ∧ (∀ k, ExcOK (w'.info k) ∧ (w'.info k).log = (step fold s op).log k) ∧
      w'.calls = w.calls ++ (match op with | .caught k => (catchLoop exits (w.info k).severity (w.info k).log).1 | _ => []) := by
  cases op with
  | throw k e =>
    obtain ⟨y, e1, e2, e3⟩ := throw_spec hf (h k).1 ht
    refine ⟨{ w with info := fun i => if i = k then y else w.info i }, by rw [excStep, e1, Res.ok_bind], ?_, (List.append_nil _).symm⟩
    intro i
    simp only [step]
    by_cases hi : i = k
    · rw [if_pos hi, if_pos hi, e3, (h k).2]; exact ⟨e2, rfl⟩
    · rw [if_neg hi, if_neg hi]; exact h i
  | clear k =>
    refine ⟨{ w with info := fun i => if i = k then clearException (w.info k) else w.info i }, by rw [excStep], ?_, (List.append_nil _).symm⟩
    intro i
    simp only [step]
    by_cases hi : i = k
    · rw [if_pos hi, if_pos hi]; exact ⟨excClear_ok _, rfl⟩
    · rw [if_neg hi, if_neg hi]; exact h i
  | caught k =>
    have hr := hc k rfl
    refine ⟨{ info := fun i => if i = k then clearException (w.info k) else w.info i, calls := w.calls ++ (catchLoop exits (w.info k).severity (w.info k).log).1 }, ?_, ?_, rfl⟩
    · unfold excStep catchException
      simp only [hr, Bool.false_eq_true, if_false]
    · intro i
      simp only [step]
      by_cases hi : i = k
      · rw [if_pos hi, if_pos hi]; exact ⟨excClear_ok _, rfl⟩
      · rw [if_neg hi, if_neg hi]; exact h i
  | inherit k j =>
    obtain ⟨y, e1, e2, e3⟩ := inherit_spec hf (w.info j).log (h k).1 (h j).1.text
    refine ⟨{ w with info := fun i => if i = k then y else w.info i }, by rw [excStep, e1, Res.ok_bind], ?_, (List.append_nil _).symm⟩
    intro i
    simp only [step]
    by_cases hi : i = k
    · rw [if_pos hi, if_pos hi, e3, (h k).2, (h j).2]; exact ⟨e2, rfl⟩
    · rw [if_neg hi, if_neg hi]; exact h i

/-- **C52**: after every history of throws, catches, clears and inherits on any number of exceptions (with a fatal handler that
returns), every log holds exactly the exceptions thrown since it was last cleared, in order, without those that repeat the one just
before them; and the severity reported is that of the last one. -/
theorem C52_log (fold : Byte → Byte) (hf : FoldOK fold) (ops : List ExcOp) (ht : ∀ op ∈ ops, ExcOp.Text op) :
    ∃ w, excRun fold (fun _ => false) excStart ops = .ok w ∧
      ∀ k, (w.info k).log = (ops.foldl (step fold) ⟨fun _ => [], []⟩).log k ∧ (w.info k).severity = reported (w.info k).log := by
  have key : ∀ (ops : List ExcOp) (w : ExcWorld) (s : Logs), (∀ op ∈ ops, ExcOp.Text op) →
      (∀ k, ExcOK (w.info k) ∧ (w.info k).log = s.log k) →
      ∃ w', excRun fold (fun _ => false) w ops = .ok w' ∧ ∀ k, ExcOK (w'.info k) ∧ (w'.info k).log = (ops.foldl (step fold) s).log k := by
    intro ops
    induction ops with
    | nil => intro w s _ h; exact ⟨w, rfl, h⟩
    | cons op ops ih =>
      intro w s ht h
      obtain ⟨w', e1, e2, _⟩ := excStep_spec hf (exits := fun _ => false) h (ht op (List.mem_cons_self ..)) (fun k _ => catch_returns _ _)
      obtain ⟨w'', f1, f2⟩ := ih w' (step fold s op) (fun o ho => ht o (List.mem_cons_of_mem _ ho)) e2
      exact ⟨w'', by rw [excRun, e1, Res.ok_bind, f1], f2⟩
  obtain ⟨w, h1, h2⟩ := key ops excStart ⟨fun _ => [], []⟩ ht (fun k => ⟨excClear_ok acquireExceptionInfo, rfl⟩)
  exact ⟨w, h1, fun k => ⟨(h2 k).2, (h2 k).1.severity⟩⟩

/-- Below the fatal severity a catch delivers everything. -/
theorem catch_mild (exits : ExcElem → Bool) (sev : Nat) (hs : sev < 700) : ∀ (l : List ExcElem), (∀ p ∈ l, p.severity < 700) →
    catchLoop exits sev l = (l.flatMap deliver, false) := by
  intro l
  induction l with
  | nil => intro _; rfl
  | cons p ps ih =>
    intro h
    rw [catchLoop, ih (fun q hq => h q (List.mem_cons_of_mem _ hq))]
    have hp := h p (List.mem_cons_self ..)
    have : ¬ sev ≥ fatalErrorException := by unfold fatalErrorException; omega
    simp only [this, if_false, List.flatMap_cons]
    congr 1
    unfold deliver warningException errorException fatalErrorException
    by_cases h1 : p.severity < 300
    · rw [if_pos h1, if_neg (by omega), if_neg (by omega)]; rfl
    · by_cases h2 : p.severity < 400
      · rw [if_neg h1, if_pos h2, if_pos (by omega), if_neg (by omega)]; rfl
      · rw [if_neg (show ¬ (p.severity ≥ 300 ∧ p.severity < 400) by omega), if_pos (show p.severity ≥ 400 ∧ p.severity < 700 by omega), if_neg h1, if_neg h2, if_pos hp]; rfl

/-- **C52**, with its missing part (fatal exceptions, see the violations): in every history without fatal exceptions, every recorded
exception that is caught is delivered to the handler of its class, once and in order, and nothing else is delivered.  The fatal
handler may be any. -/
theorem C52_deliver_partial (fold : Byte → Byte) (hf : FoldOK fold) (exits : ExcElem → Bool) (ops : List ExcOp) (ht : ∀ op ∈ ops, ExcOp.Text op)
    (hm : ∀ k e, .throw k e ∈ ops → e.severity < 700) :
    ∃ w, excRun fold exits excStart ops = .ok w ∧ w.calls = (ops.foldl (step fold) ⟨fun _ => [], []⟩).calls ∧
      ∀ k, (w.info k).log = (ops.foldl (step fold) ⟨fun _ => [], []⟩).log k ∧ (w.info k).severity = reported (w.info k).log := by
  have rec_mild : ∀ (l : List ExcElem) (e : ExcElem), (∀ p ∈ l, p.severity < 700) → e.severity < 700 → ∀ p ∈ record fold l e, p.severity < 700 := by
    intro l e hl he p hp
    unfold record at hp
    split at hp
    · split at hp
      · exact hl p hp
      · rcases List.mem_append.mp hp with hp | hp
        · exact hl p hp
        · rw [List.mem_singleton] at hp; rw [hp]; exact he
    · rw [List.mem_singleton] at hp; rw [hp]; exact he
  have fold_mild : ∀ (m l : List ExcElem), (∀ p ∈ l, p.severity < 700) → (∀ p ∈ m, p.severity < 700) → ∀ p ∈ m.foldl (record fold) l, p.severity < 700 := by
    intro m
    induction m with
    | nil => intro l hl _; exact hl
    | cons e m ih => intro l hl hm; exact ih _ (rec_mild l e hl (hm e (List.mem_cons_self ..))) (fun q hq => hm q (List.mem_cons_of_mem _ hq))
  have key : ∀ (ops : List ExcOp) (w : ExcWorld) (s : Logs), (∀ op ∈ ops, ExcOp.Text op) → (∀ k e, .throw k e ∈ ops → e.severity < 700) →
      (∀ k, ExcOK (w.info k) ∧ (w.info k).log = s.log k) → (∀ k, ∀ p ∈ s.log k, p.severity < 700) → w.calls = s.calls →
      ∃ w', excRun fold exits w ops = .ok w' ∧ (∀ k, ExcOK (w'.info k) ∧ (w'.info k).log = (ops.foldl (step fold) s).log k) ∧
        w'.calls = (ops.foldl (step fold) s).calls := by
    intro ops
    induction ops with
    | nil => intro w s _ _ h _ hcalls; exact ⟨w, rfl, h, hcalls⟩
    | cons op ops ih =>
      intro w s ht hm h hmild hcalls
      have hsev : ∀ k, (w.info k).severity < 700 := by
        intro k
        rw [(h k).1.severity]
        unfold reported
        split
        · rename_i p hp
          have := List.mem_of_getLast? hp
          rw [(h k).2] at this
          exact hmild k p this
        · decide
      have hcat : ∀ k, catchLoop exits (w.info k).severity (w.info k).log = ((s.log k).flatMap deliver, false) := by
        intro k
        rw [(h k).2]
        exact catch_mild exits _ (hsev k) _ (hmild k)
      obtain ⟨w', e1, e2, e3⟩ := excStep_spec hf (exits := exits) h (ht op (List.mem_cons_self ..)) (fun k _ => by rw [hcat k])
      obtain ⟨w'', f1, f2, f3⟩ := ih w' (step fold s op) (fun o ho => ht o (List.mem_cons_of_mem _ ho))
        (fun k e he => hm k e (List.mem_cons_of_mem _ he)) e2 (by
          intro k p hp
          cases op with
          | throw j e =>
            simp only [step] at hp
            by_cases hk : k = j
            · rw [if_pos hk] at hp
              exact rec_mild _ e (hmild j) (hm j e (List.mem_cons_self ..)) p hp
            · rw [if_neg hk] at hp; exact hmild k p hp
          | clear j =>
            simp only [step] at hp
            by_cases hk : k = j
            · rw [if_pos hk] at hp; exact absurd hp List.not_mem_nil
            · rw [if_neg hk] at hp; exact hmild k p hp
          | caught j =>
            simp only [step] at hp
            by_cases hk : k = j
            · rw [if_pos hk] at hp; exact absurd hp List.not_mem_nil
            · rw [if_neg hk] at hp; exact hmild k p hp
          | inherit j i =>
            simp only [step] at hp
            by_cases hk : k = j
            · rw [if_pos hk] at hp; exact fold_mild _ _ (hmild j) (hmild i) p hp
            · rw [if_neg hk] at hp; exact hmild k p hp) (by
          rw [e3, hcalls]
          cases op with
          | caught k => simp only [step, hcat]
          | throw k e => exact List.append_nil _
          | clear k => exact List.append_nil _
          | inherit k j => exact List.append_nil _)
      exact ⟨w'', by rw [excRun, e1, Res.ok_bind, f1], f2, f3⟩
  obtain ⟨w, h1, h2, h3⟩ := key ops excStart ⟨fun _ => [], []⟩ ht hm (fun k => ⟨excClear_ok acquireExceptionInfo, rfl⟩)
    (fun k p hp => absurd hp List.not_mem_nil) rfl
  exact ⟨w, h1, h3, fun k => ⟨(h2 k).2, (h2 k).1.severity⟩⟩

-- a warning, an error twice, inherited by another exception with the same error last, and caught
example : let warn : ExcElem := ⟨310, some [0x61], none⟩
    let err : ExcElem := ⟨490, some [0x62], some [0x63]⟩
    (∀ op ∈ [ExcOp.throw 0 warn, .throw 0 err, .throw 0 err, .throw 1 warn, .inherit 1 0, .caught 1], ExcOp.Text op) ∧
      (excRun asciiMap (fun _ => false) excStart [ExcOp.throw 0 warn, .throw 0 err, .throw 0 err, .throw 1 warn, .inherit 1 0, .caught 1]).bind
        (fun w => .ok (w.calls, (w.info 0).log)) = .ok ([(.warning, warn), (.error, err)], [warn, err]) := by
  refine ⟨?_, by decide⟩
  intro op hop
  simp only [List.mem_cons, List.not_mem_nil, or_false] at hop
  rcases hop with rfl | rfl | rfl | rfl | rfl | rfl <;> simp [ExcOp.Text, ExcElem.Text]

/-- **C52 is false**: a fatal exception followed by a milder one is not delivered to the fatal handler, because `CatchException`
(exception.c:245) looks at the severity of the exception, which is that of the last one, instead of the element's; then the log is
cleared.  For every log that ends in something milder. -/
theorem C52_fatal_lost_violated (exits : ExcElem → Bool) (x : ExcInfo) (h : ExcOK x) (last : ExcElem) (hl : x.log.getLast? = some last)
    (hm : last.severity < 700) :
    ∃ y, catchException exits x = ((x.log.filter (fun p => decide (p.severity < 700))).flatMap deliver, some y) ∧ y.log = [] := by
  have hs : x.severity < 700 := by rw [h.severity]; unfold reported; rw [hl]; exact hm
  have key : ∀ l : List ExcElem, catchLoop exits x.severity l = ((l.filter (fun p => decide (p.severity < 700))).flatMap deliver, false) := by
    intro l
    induction l with
    | nil => rfl
    | cons p ps ih =>
      by_cases hp : p.severity < 700
      · rw [List.filter_cons, if_pos (decide_eq_true hp)]
        have e := catch_mild exits x.severity hs [p] (by intro q hq; rw [List.mem_singleton] at hq; rw [hq]; exact hp)
        have : ¬ x.severity ≥ fatalErrorException := by unfold fatalErrorException; omega
        rw [catchLoop] at e ⊢
        simp only [this, if_false, ih, catchLoop, List.append_nil, List.flatMap_cons, List.flatMap_nil] at e ⊢
        rw [(Prod.mk.inj e).1]
      · rw [List.filter_cons, if_neg (by simpa using hp), catchLoop]
        have : ¬ x.severity ≥ fatalErrorException := by unfold fatalErrorException; omega
        have h1 : ¬ (p.severity ≥ warningException ∧ p.severity < errorException) := by unfold errorException; omega
        have h2 : ¬ (p.severity ≥ errorException ∧ p.severity < fatalErrorException) := by unfold fatalErrorException; omega
        simp only [this, h1, h2, if_false, ih, List.nil_append]
  refine ⟨clearException x, ?_, rfl⟩
  unfold catchException
  rw [key x.log]
  rfl

-- such a log: a fatal error, then a warning
example : ∃ x, (throwException asciiMap acquireExceptionInfo ⟨795, some [0x61], none⟩).bind (throwException asciiMap · ⟨310, some [0x62], none⟩) = .ok x ∧
    ExcOK x ∧ x.log = [⟨795, some [0x61], none⟩, ⟨310, some [0x62], none⟩] := by
  refine ⟨⟨310, some [0x62], none, [⟨795, some [0x61], none⟩, ⟨310, some [0x62], none⟩]⟩, rfl, ⟨rfl, ?_, ?_⟩, rfl⟩
  · intro p hp
    have : p = ⟨310, some [0x62], none⟩ := (Option.some.inj hp).symm
    subst this
    exact ⟨rfl, rfl⟩
  · intro p hp
    simp only [List.mem_cons, List.not_mem_nil, or_false] at hp
    rcases hp with rfl | rfl <;> simp [ExcElem.Text]

/-- **C52 is false**: when the last exception is fatal, the first one is delivered to the fatal handler whatever it is; the default
handler then ends the process with that one's reason and severity (exception.c:323-335), and the fatal exception is never reported. -/
theorem C52_fatal_wrong_violated (x : ExcInfo) (h : ExcOK x) (first : ExcElem) (rest : List ExcElem) (hl : x.log = first :: rest)
    (hf : reported x.log ≥ 700) (hr : first.reason.isSome = true) (hm : 300 ≤ first.severity ∧ first.severity < 400) :
    catchException (fun p => p.reason.isSome) x = ([(.warning, first), (.fatal, first)], none) := by
  have hs : x.severity ≥ fatalErrorException := by rw [h.severity]; exact hf
  unfold catchException
  rw [hl, catchLoop]
  have h1 : first.severity ≥ warningException ∧ first.severity < errorException := hm
  have h2 : ¬ (first.severity ≥ errorException ∧ first.severity < fatalErrorException) := by unfold errorException; omega
  simp only [hs, hr, h1, h2, if_true, if_false, and_self]
  rfl

example : reported [⟨310, some [0x62], none⟩, ⟨795, some [0x61], none⟩] ≥ 700 := by decide

/-- **C52 is false**: an exception whose reason differs from the last one's in letter case only is not recorded, though it is not a
repetition.  For every letter. -/
theorem C52_repetition_violated (n : Nat) (hn : n < 26) (s : Nat) : ∃ x, throwException asciiMap acquireExceptionInfo
      ⟨s, some [BitVec.ofNat 8 (0x41 + n)], none⟩ = .ok x ∧
    throwException asciiMap x ⟨s, some [BitVec.ofNat 8 (0x61 + n)], none⟩ = .ok x ∧ x.log.length = 1 := by
  refine ⟨_, rfl, ?_, rfl⟩
  have hc : ∀ n < 26, localeCompare asciiMap (some [BitVec.ofNat 8 (0x41 + n)]) (some [BitVec.ofNat 8 (0x61 + n)]) = .ok 0 := by decide +kernel
  show throwException asciiMap ⟨s, some [BitVec.ofNat 8 (0x41 + n)], none, [⟨s, some [BitVec.ofNat 8 (0x41 + n)], none⟩]⟩ _ = _
  unfold throwException
  simp only [List.getLast?_singleton, if_true, hc n hn, Res.ok_bind]
  rfl

end Wizard.Props

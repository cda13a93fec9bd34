import Verif.Spec.Signals
/-! C174: signals. -/
namespace Wizard.Props
open Wizard Wizard.Spec.Signals

/-- Setting the handler of a signal that is not pending. -/
theorem set_calm {w : SigWorld} (hp : ∀ n, w.pending n = false) {fails : Nat → Bool} {n : Nat} (hf : fails n = false) (h : SigHandler) :
    setWizardSignalHandler fails n h w = ((w.action n).handler, ((w.block n true).act n (wizardAction n h)).block n false) := by
  unfold setWizardSignalHandler
  simp only [hf]
  rw [if_neg (by simp)]
  unfold unblock
  have : ((((w.block n true).act n (wizardAction n h)).block n false).pending n) = false := hp n
  simp only [this]
  rw [if_neg (by simp)]
  rfl

/-- What one statement of the start does: the action of its signal is replaced, by the handler of the toolkit if it was the default and by the same handler otherwise, and the signal is not blocked. -/
theorem signal_calm {w : SigWorld} (hc : Calm w) {fails mid : Nat → Bool} {n : Nat} (hf : fails n = false) (hm : mid n = false) (he : (w.action n).handler ≠ .err) (hr : w.recorded n = .dfl) :
    let w' := genesisSignal fails mid w n
    Calm w' ∧ w'.temp = w.temp ∧ w'.ran = w.ran ∧ w'.inProgress = w.inProgress ∧ w'.locked = w.locked ∧
    w'.action n = wizardAction n (if (w.action n).handler = .dfl then .wizard else (w.action n).handler) ∧ w'.blocked n = false ∧
    (w'.recorded n = if (w.action n).handler = .dfl then .dfl else .wizard) ∧
    ∀ m, m ≠ n → w'.action m = w.action m ∧ w'.blocked m = w.blocked m ∧ w'.recorded m = w.recorded m := by
  have h1 := set_calm hc.pending hf (n := n) .wizard
  simp only []
  unfold genesisSignal
  rw [if_neg (by simp [hc.running]), if_pos hr]
  unfold registerWizardSignalHandler
  simp only []
  rw [h1]
  simp only []
  rw [if_neg he]
  by_cases hd : (w.action n).handler = .dfl
  · rw [if_pos hd, if_pos hd, if_pos hd]
    refine ⟨⟨hc.running, hc.pending⟩, rfl, rfl, rfl, rfl, by simp [SigWorld.block, SigWorld.act], by simp [SigWorld.block], by simp [hd], ?_⟩
    intro m hm
    simp [SigWorld.block, SigWorld.act, hm]
  · rw [if_neg hd, if_neg hd, if_neg hd]
    rw [show (mid n) = false from hm]
    have hrun : (((w.block n true).act n (wizardAction n .wizard)).block n false).ended = none := hc.running
    simp only [Bool.false_eq_true, if_false]
    rw [if_neg (by rw [hrun]; simp)]
    rw [set_calm (w := ((w.block n true).act n (wizardAction n .wizard)).block n false) hc.pending hf (w.action n).handler]
    refine ⟨⟨hc.running, hc.pending⟩, rfl, rfl, rfl, rfl, by simp [SigWorld.block, SigWorld.act], by simp [SigWorld.block], by simp [SigWorld.block, SigWorld.act, wizardAction], ?_⟩
    intro m hm
    simp [SigWorld.block, SigWorld.act, hm]

theorem signal_done {w : SigWorld} (fails mid : Nat → Bool) {n : Nat} (hr : w.recorded n ≠ .dfl) : genesisSignal fails mid w n = w := by
  unfold genesisSignal
  rw [if_neg hr]
  split <;> rfl

/-- The whole start. -/
theorem signals_calm (fails mid : Nat → Bool) : ∀ (l : List Nat) (w : SigWorld), l.Nodup → Calm w → (∀ n ∈ l, fails n = false ∧ mid n = false) → (∀ n, (w.action n).handler ≠ .err) →
    let w' := l.foldl (genesisSignal fails mid) w
    Calm w' ∧ w'.temp = w.temp ∧ w'.ran = w.ran ∧ w'.inProgress = w.inProgress ∧ w'.locked = w.locked ∧
    ∀ n, if n ∈ l ∧ w.recorded n = .dfl
      then w'.action n = wizardAction n (if (w.action n).handler = .dfl then .wizard else (w.action n).handler) ∧ w'.blocked n = false ∧
        (w'.recorded n = if (w.action n).handler = .dfl then .dfl else .wizard)
      else w'.action n = w.action n ∧ w'.blocked n = w.blocked n ∧ w'.recorded n = w.recorded n := by
  intro l
  induction l with
  | nil => intro w _ hc _ _; exact ⟨hc, rfl, rfl, rfl, rfl, fun n => by rw [if_neg (by simp)]; exact ⟨rfl, rfl, rfl⟩⟩
  | cons x l ih =>
    intro w hd hc hfm he
    obtain ⟨hx, hd⟩ := List.nodup_cons.1 hd
    obtain ⟨f1, f2⟩ := hfm x List.mem_cons_self
    simp only [List.foldl_cons]
    by_cases hr : w.recorded x = .dfl
    · obtain ⟨a1, a2, a3, a4, a5, a6, a7, a8, a9⟩ := signal_calm hc f1 f2 (he x) hr
      have he' : ∀ n, ((genesisSignal fails mid w x).action n).handler ≠ .err := by
        intro n
        by_cases hn : n = x
        · subst hn
          rw [a6]
          unfold wizardAction
          simp only []
          split
          · simp
          · exact he n
        · rw [(a9 n hn).1]
          exact he n
      obtain ⟨b1, b2, b3, b4, b5, b6⟩ := ih (genesisSignal fails mid w x) hd a1 (fun n hn => hfm n (List.mem_cons_of_mem _ hn)) he'
      refine ⟨b1, b2.trans a2, b3.trans a3, b4.trans a4, b5.trans a5, fun n => ?_⟩
      have b6 := b6 n
      by_cases hn : n = x
      · subst hn
        rw [if_neg (fun h => hx h.1)] at b6
        rw [if_pos ⟨List.mem_cons_self, hr⟩, b6.1, b6.2.1, b6.2.2]
        exact ⟨a6, a7, a8⟩
      · obtain ⟨c1, c2, c3⟩ := a9 n hn
        rw [c1, c2, c3] at b6
        simpa [hn] using b6
    · rw [signal_done fails mid hr]
      obtain ⟨b1, b2, b3, b4, b5, b6⟩ := ih w hd hc (fun n hn => hfm n (List.mem_cons_of_mem _ hn)) he
      refine ⟨b1, b2, b3, b4, b5, fun n => ?_⟩
      have b6 := b6 n
      by_cases hn : n = x
      · subst hn
        rw [if_neg (fun h => hr h.2)]
        rw [if_neg (fun h => hr h.2)] at b6
        exact b6
      · simpa [hn] using b6

theorem genesis_calm {w : SigWorld} (hc : Calm w) {fails mid : Nat → Bool} (hfm : ∀ n ∈ wizardSignals, fails n = false ∧ mid n = false) (he : ∀ n, (w.action n).handler ≠ .err) :
    let w' := genesisSignals fails mid w
    Calm w' ∧ w'.temp = w.temp ∧ w'.ran = w.ran ∧ w'.inProgress = w.inProgress ∧ w'.locked = w.locked ∧
    ∀ n, if n ∈ wizardSignals ∧ w.recorded n = .dfl
      then w'.action n = wizardAction n (if (w.action n).handler = .dfl then .wizard else (w.action n).handler) ∧ w'.blocked n = false ∧
        (w'.recorded n = if (w.action n).handler = .dfl then .dfl else .wizard)
      else w'.action n = w.action n ∧ w'.blocked n = w.blocked n ∧ w'.recorded n = w.recorded n :=
  signals_calm fails mid wizardSignals w (by decide) hc hfm he

/-- **C174** (partial) Whatever a program makes its signals do, and however often it starts the toolkit in between: every signal has the handler that the program has given it last, except that the toolkit may
have put its own in the place of the default; signals that it does not know it leaves alone altogether.  What is missing: calls of `sigaction` that fail and signals that arrive or wait meanwhile, of which it is
false, and all that belongs to a handler besides the function, of which it is false too. -/
theorem C174_handlers_partial (w : SigWorld) (hc : Calm w) (es : List SigEvent) (he : ∀ n, (w.action n).handler ≠ .err) (hes : ∀ n a, SigEvent.set n a ∈ es → a.handler ≠ .err) (n : Nat) :
    Calm (es.foldl step w) ∧
    (((es.foldl step w).action n).handler = wanted n (w.action n).handler es ∨
      (n ∈ wizardSignals ∧ ((es.foldl step w).action n).handler = .wizard ∧ wanted n (w.action n).handler es = .dfl)) ∧
    (n ∉ wizardSignals → (es.foldl step w).blocked n = w.blocked n) := by
  have key : ∀ (es : List SigEvent) (w : SigWorld) (before : SigHandler), Calm w → (∀ n, (w.action n).handler ≠ .err) → (∀ n a, SigEvent.set n a ∈ es → a.handler ≠ .err) →
      ((w.action n).handler = before ∨ (n ∈ wizardSignals ∧ (w.action n).handler = .wizard ∧ before = .dfl)) →
      Calm (es.foldl step w) ∧
      (((es.foldl step w).action n).handler = wanted n before es ∨ (n ∈ wizardSignals ∧ ((es.foldl step w).action n).handler = .wizard ∧ wanted n before es = .dfl)) ∧
      (n ∉ wizardSignals → (es.foldl step w).blocked n = w.blocked n) := by
    intro es
    induction es with
    | nil => intro w before hc _ _ h; exact ⟨hc, h, fun _ => rfl⟩
    | cons e es ih =>
      intro w before hc he hes h
      have hes' : ∀ n a, SigEvent.set n a ∈ es → a.handler ≠ .err := fun n a ha => hes n a (List.mem_cons_of_mem _ ha)
      cases e with
      | set m a =>
        have ha := hes m a List.mem_cons_self
        refine ih (w.act m a) (if m = n then a.handler else before) ⟨hc.running, hc.pending⟩ ?_ hes' ?_
        · intro k
          unfold SigWorld.act
          simp only []
          split
          · exact ha
          · exact he k
        · unfold SigWorld.act
          by_cases hm : m = n
          · subst hm
            left
            simp
          · simpa [hm, Ne.symm hm] using h
      | start =>
        obtain ⟨a1, _, _, _, _, a6⟩ := genesis_calm hc (fails := fun _ => false) (mid := fun _ => false) (fun _ _ => ⟨rfl, rfl⟩) he
        have hne : ∀ k, ((step w .start).action k).handler ≠ .err := by
          intro k
          have := a6 k
          show ((genesisSignals (fun _ => false) (fun _ => false) w).action k).handler ≠ .err
          split at this
          · rw [this.1]
            unfold wizardAction
            simp only []
            split
            · simp
            · exact he k
          · rw [this.1]
            exact he k
        have a6n := a6 n
        have hb : n ∉ wizardSignals → (step w .start).blocked n = w.blocked n := by
          intro hn
          rw [if_neg (fun h => hn h.1)] at a6n
          exact a6n.2.1
        obtain ⟨i1, i2, i3⟩ := ih (step w .start) before a1 hne hes' (by
          show ((genesisSignals (fun _ => false) (fun _ => false) w).action n).handler = before ∨ (_ ∧ ((genesisSignals (fun _ => false) (fun _ => false) w).action n).handler = .wizard ∧ _)
          split at a6n
          · rename_i hn
            rw [a6n.1]
            unfold wizardAction
            simp only []
            by_cases hd : (w.action n).handler = .dfl
            · rw [if_pos hd]
              rcases h with h | ⟨_, h, _⟩
              · exact .inr ⟨hn.1, rfl, by rw [← h, hd]⟩
              · rw [hd] at h; cases h
            · rw [if_neg hd]
              exact h
          · rw [a6n.1]
            exact h)
        exact ⟨i1, i2, fun hn => (i3 hn).trans (hb hn)⟩
  exact key es w _ hc he hes (.inl rfl)

/-- **C174** (partial) A signal that has the default action when the toolkit is started has the handler of the toolkit afterwards; when it arrives, at any time when the tree of temporary files is not in use,
the program ends with the number of the signal as its status, and all its temporary files have been removed.  What is missing: the tree is in use, of which it is false. -/
theorem C174_ends_partial (w : SigWorld) (hc : Calm w) (he : ∀ n, (w.action n).handler ≠ .err) (n : Nat) (hn : n ∈ wizardSignals) (hd : (w.action n).handler = .dfl) (hr : w.recorded n = .dfl)
    (hq : w.inProgress = false) (hl : w.locked = false) :
    let w' := sigArrive (genesisSignals (fun _ => false) (fun _ => false) w) n
    (w'.ended = some (.exit n) ∨ w'.ended = some (.quit n)) ∧ w'.temp.files = w.temp.temps.foldl (fun fs k => unlinkFile k fs) w.temp.files ∧ w'.ran = w.ran := by
  obtain ⟨a1, a2, a3, a4, a5, a6⟩ := genesis_calm hc (fails := fun _ => false) (mid := fun _ => false) (fun _ _ => ⟨rfl, rfl⟩) he
  have a6 := a6 n
  rw [if_pos ⟨hn, hr⟩, if_pos hd, if_pos hd] at a6
  generalize genesisSignals (fun _ => false) (fun _ => false) w = v at a1 a2 a3 a4 a5 a6
  obtain ⟨b1, b2, b3⟩ := a6
  simp only []
  unfold sigArrive
  rw [if_neg (by rw [a1.running]; simp), b2]
  simp only [Bool.false_eq_true, if_false]
  unfold deliver
  rw [b1]
  simp only [wizardAction]
  unfold wizardSignalHandler asyncTerminus handlerEnds
  have e1 : v.inProgress = false := by rw [a4, hq]
  have e2 : v.locked = false := by rw [a5, hl]
  have e3 : v.ended = none := a1.running
  simp only [SigWorld.block, e1, e2, e3, Bool.false_eq_true, if_false]
  by_cases hx : n ∈ exitSignals
  · rw [if_pos hx]
    exact ⟨.inl rfl, by simp only [tmpAsyncTerminus, a2], a3⟩
  · rw [if_neg hx]
    simp only [if_pos, Bool.true_eq_false, false_and, and_false, if_false]
    exact ⟨.inr trivial, by simp only [tmpAsyncTerminus, a2], a3⟩

/-! ### Violations -/

/-- **C174** (violated) Starting the toolkit replaces what belongs to the handlers of a program: a function that expects `siginfo_t` is called without one afterwards, calls that the signal interrupts are not
restarted any more, and signals that were to be blocked while it runs are not (wizard.c:134-142, 199-200). -/
theorem C174_flags_violated (w : SigWorld) (hc : Calm w) (he : ∀ n, (w.action n).handler ≠ .err) (n : Nat) (hn : n ∈ wizardSignals) (hr : w.recorded n = .dfl) (f : Nat)
    (hu : (w.action n).handler = .user f) (hx : (w.action n).flags.siginfo = true ∨ (w.action n).flags.restart = true ∨ ∃ m ∈ (w.action n).mask, m ≠ n) :
    let a := (genesisSignals (fun _ => false) (fun _ => false) w).action n
    a.handler = .user f ∧ a.flags.siginfo = false ∧ a.flags.restart = false ∧ a.mask = [n] ∧ a ≠ w.action n := by
  obtain ⟨a1, a2, a3, a4, a5, a6⟩ := genesis_calm hc (fails := fun _ => false) (mid := fun _ => false) (fun _ _ => ⟨rfl, rfl⟩) he
  have a6 := a6 n
  rw [if_pos ⟨hn, hr⟩, if_neg (by rw [hu]; simp), hu] at a6
  simp only []
  rw [a6.1]
  refine ⟨rfl, rfl, rfl, rfl, fun h => ?_⟩
  rw [← h] at hx
  rcases hx with hx | hx | ⟨m, hm, hmn⟩
  · cases hx
  · cases hx
  · exact hmn (List.mem_singleton.1 hm)

/-- **C174** (violated) Starting the toolkit unblocks signals that the program has blocked (wizard.c:147). -/
theorem C174_blocked_violated (w : SigWorld) (hc : Calm w) (he : ∀ n, (w.action n).handler ≠ .err) (n : Nat) (hn : n ∈ wizardSignals) (hr : w.recorded n = .dfl) (hb : w.blocked n = true) :
    (genesisSignals (fun _ => false) (fun _ => false) w).blocked n = false ∧ w.blocked n = true := by
  obtain ⟨a1, a2, a3, a4, a5, a6⟩ := genesis_calm hc (fails := fun _ => false) (mid := fun _ => false) (fun _ _ => ⟨rfl, rfl⟩) he
  have a6 := a6 n
  rw [if_pos ⟨hn, hr⟩] at a6
  exact ⟨a6.2.1, hb⟩

/-- The handler of the toolkit ends the program or hangs. -/
theorem handler_ends (w : SigWorld) (n : Nat) : (wizardSignalHandler w n).ended ≠ none ∧ (wizardSignalHandler w n).ran = w.ran := by
  have h1 : ∀ v : SigWorld, (handlerEnds v n).ended ≠ none ∧ (handlerEnds v n).ran = v.ran := by
    intro v
    unfold handlerEnds
    split
    · rename_i h
      exact ⟨by rw [h]; simp, rfl⟩
    · split
      · exact ⟨by simp, rfl⟩
      · split
        · exact ⟨by simp, rfl⟩
        · exact ⟨by simp, rfl⟩
  have h2 : ∀ v : SigWorld, (asyncTerminus v n).ran = v.ran := by
    intro v
    unfold asyncTerminus
    split <;> rfl
  unfold wizardSignalHandler
  simp only []
  refine ⟨(h1 _).1, ?_⟩
  rw [(h1 _).2, h2]
  simp only []
  split <;> rfl

/-- **C174** (violated) If a signal that the program handles itself waits, being blocked, when the toolkit is started, or arrives between the two calls that set and reset its handler (wizard.c:196-200), the
handler of the toolkit gets it: the program ends, and its own handler does not run. -/
theorem C174_lost_violated (w : SigWorld) (fails mid : Nat → Bool) (hrun : w.ended = none) (n : Nat) (hf : fails n = false) (f : Nat) (hu : (w.action n).handler = .user f) (hr : w.recorded n = .dfl)
    (hx : w.pending n = true ∨ (w.pending n = false ∧ mid n = true)) :
    (genesisSignal fails mid w n).ended ≠ none ∧ (genesisSignal fails mid w n).ran = w.ran := by
  unfold genesisSignal
  rw [if_neg (by simp [hrun]), if_pos hr]
  simp only []
  have key : (registerWizardSignalHandler fails mid n w).2.ended ≠ none ∧ (registerWizardSignalHandler fails mid n w).2.ran = w.ran := by
    unfold registerWizardSignalHandler
    have h0 : (setWizardSignalHandler fails n .wizard w).1 = .user f := by
      unfold setWizardSignalHandler
      simp only [hf, Bool.false_eq_true, if_false]
      exact hu
    simp only []
    rw [h0, if_neg (by simp), if_neg (by simp)]
    have hset : (setWizardSignalHandler fails n .wizard w).2 = unblock ((w.block n true).act n (wizardAction n .wizard)) n := by
      unfold setWizardSignalHandler
      simp only [hf, Bool.false_eq_true, if_false]
    have hdel : ∀ v : SigWorld, (v.action n).handler = .wizard → (deliver v n).ended ≠ none ∧ (deliver v n).ran = v.ran := by
      intro v hv
      unfold deliver
      rw [hv]
      exact handler_ends v n
    rw [hset]
    rcases hx with hx | ⟨hx, hy⟩
    · have h1 : unblock ((w.block n true).act n (wizardAction n .wizard)) n = deliver (((((w.block n true).act n (wizardAction n .wizard)).block n false)).pend n false) n := by
        unfold unblock
        simp only []
        rw [if_pos (by exact hx)]
      have h2 := hdel (((((w.block n true).act n (wizardAction n .wizard)).block n false)).pend n false) (by simp [SigWorld.pend, SigWorld.block, SigWorld.act, wizardAction])
      rw [h1]
      have h3 : ∀ b : Bool, (if b = true then sigArrive (deliver (((((w.block n true).act n (wizardAction n .wizard)).block n false)).pend n false) n) n
          else deliver (((((w.block n true).act n (wizardAction n .wizard)).block n false)).pend n false) n) = deliver (((((w.block n true).act n (wizardAction n .wizard)).block n false)).pend n false) n := by
        intro b
        unfold sigArrive
        rw [if_pos h2.1]
        split <;> rfl
      rw [h3, if_pos h2.1]
      exact ⟨h2.1, h2.2⟩
    · have h1 : unblock ((w.block n true).act n (wizardAction n .wizard)) n = ((w.block n true).act n (wizardAction n .wizard)).block n false := by
        unfold unblock
        simp only []
        rw [if_neg (by show ¬ (w.pending n = true); rw [hx]; simp)]
      rw [h1, if_pos hy]
      have h2 := hdel (((w.block n true).act n (wizardAction n .wizard)).block n false) (by simp [SigWorld.block, SigWorld.act, wizardAction])
      have h3 : sigArrive (((w.block n true).act n (wizardAction n .wizard)).block n false) n = deliver (((w.block n true).act n (wizardAction n .wizard)).block n false) n := by
        unfold sigArrive
        rw [if_neg (by show ¬ (w.ended ≠ none); simp [hrun]), if_neg (by simp [SigWorld.block])]
      rw [h3, if_pos h2.1]
      exact ⟨h2.1, h2.2⟩
  exact key

/-- **C174** (violated) A signal that arrives while the tree of temporary files is in use finds its semaphore locked: its handler waits for the code that it has interrupted.  The program does not end, its
temporary files stay, and the signal is blocked from then on. -/
theorem C174_locked_violated (w : SigWorld) (hrun : w.ended = none) (n : Nat) (hb : w.blocked n = false) (hw : (w.action n).handler = .wizard) (hq : w.inProgress = false) (hl : w.locked = true) :
    (sigArrive w n).ended = some (.hung n) ∧ (sigArrive w n).temp = w.temp ∧ (sigArrive w n).blocked n = true := by
  unfold sigArrive
  rw [if_neg (by rw [hrun]; simp), hb]
  simp only [Bool.false_eq_true, if_false]
  unfold deliver
  rw [hw]
  simp only [wizardSignalHandler, asyncTerminus, handlerEnds]
  simp [SigWorld.block, hq, hl]

/-- **C174** (violated) If `sigaction` fails the signal stays blocked (wizard.c:133, 145-146). -/
theorem C174_failed_violated (w : SigWorld) (fails mid : Nat → Bool) (hrun : w.ended = none) (n : Nat) (hf : fails n = true) (hr : w.recorded n = .dfl) (hb : w.blocked n = false) :
    (genesisSignal fails mid w n).blocked n = true ∧ (genesisSignal fails mid w n).action n = w.action n ∧ w.blocked n = false := by
  unfold genesisSignal
  rw [if_neg (by simp [hrun]), if_pos hr]
  unfold registerWizardSignalHandler setWizardSignalHandler
  simp only [hf, if_pos]
  exact ⟨by simp [SigWorld.block], rfl, hb⟩

/-! ### Examples -/

/-- A program that handles SIGTERM, with `siginfo_t`, and SIGINT, which it ignores, and has two temporary files. -/
def sigExample : SigWorld where
  action := fun n => if n = 15 then ⟨.user 7, [15, 2], { siginfo := true }⟩ else if n = 2 then ⟨.ign, [], {}⟩ else ⟨.dfl, [], {}⟩
  blocked := fun n => decide (n = 15)
  pending := fun _ => false
  recorded := fun _ => .dfl
  inProgress := false
  temp := { files := [[1], [2], [3]], temps := [[1], [3]], used := 2 }
  locked := false
  ran := []
  ended := none

theorem sigExample_calm : Calm sigExample ∧ ∀ n, (sigExample.action n).handler ≠ .err := by
  refine ⟨⟨rfl, fun _ => rfl⟩, fun n => ?_⟩
  unfold sigExample
  simp only []
  split
  · simp
  · split <;> simp

/-- Started, the handler of SIGTERM changed, started again. -/
def sigEvents : List SigEvent := [.start, .set 15 ⟨.user 8, [], {}⟩, .set 3 ⟨.dfl, [], {}⟩, .start]

example : ((sigEvents.foldl step sigExample).action 15).handler = .user 8 ∧ ((sigEvents.foldl step sigExample).action 2).handler = .ign ∧ ((sigEvents.foldl step sigExample).action 3).handler = .wizard ∧
    Calm (sigEvents.foldl step sigExample) := by
  obtain ⟨c, he⟩ := sigExample_calm
  refine ⟨by decide, by decide, by decide, (C174_handlers_partial sigExample c sigEvents he ?_ 3).1⟩
  intro n a ha
  simp only [sigEvents, List.mem_cons, List.not_mem_nil, or_false, SigEvent.set.injEq, reduceCtorEq, false_or] at ha
  rcases ha with ⟨_, rfl⟩ | ⟨_, rfl⟩ <;> simp

example : let w' := sigArrive (genesisSignals (fun _ => false) (fun _ => false) sigExample) 1; w'.ended = some (.exit 1) ∧ w'.temp.files = [[2]] := by
  have h := C174_ends_partial sigExample sigExample_calm.1 sigExample_calm.2 1 (by decide) rfl rfl rfl rfl
  refine ⟨?_, h.2.1⟩
  decide

example : ((genesisSignals (fun _ => false) (fun _ => false) sigExample).action 15).flags.siginfo = false :=
  (C174_flags_violated sigExample sigExample_calm.1 sigExample_calm.2 15 (by decide) rfl 7 rfl (.inl rfl)).2.1

example : (genesisSignals (fun _ => false) (fun _ => false) sigExample).blocked 15 = false :=
  (C174_blocked_violated sigExample sigExample_calm.1 sigExample_calm.2 15 (by decide) rfl rfl).1

example : (genesisSignal (fun _ => false) (fun _ => false) { sigExample with pending := fun n => decide (n = 15) } 15).ended = some (.exit 15) := by decide

example : (genesisSignal (fun _ => false) (fun _ => false) { sigExample with pending := fun n => decide (n = 15) } 15).ran = [] :=
  (C174_lost_violated { sigExample with pending := fun n => decide (n = 15) } _ _ rfl 15 rfl 7 rfl rfl (.inl rfl)).2

end Wizard.Props

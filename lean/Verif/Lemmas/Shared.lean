import Verif.Spec.Shared
/-! Calls of several threads go one after the other, if what they read before they take the semaphore stays true. -/
namespace Wizard
open Wizard.Spec.Shared

variable {σ ω κ ρ α : Type}

theorem putAt_same {β : Type} (f : Nat → β) (t : Nat) (x : β) : putAt f t x t = x := by simp [putAt]
theorem putAt_ne {β : Type} (f : Nat → β) {t u : Nat} (x : β) (h : u ≠ t) : putAt f t x u = f u := by simp [putAt, h]

/-- A history of calls of an abstract object. -/
def seqRun (sp : α → ω → ρ × α) (a : α) : List ω → List ρ × α
  | [] => ([], a)
  | op :: ops =>
    let (r, a) := sp a op
    let (rs, a) := seqRun sp a ops
    (r :: rs, a)

theorem seqRun_concat (sp : α → ω → ρ × α) : ∀ (ops : List ω) (a : α) (op : ω),
    seqRun sp a (ops ++ [op]) = ((seqRun sp a ops).1 ++ [(sp (seqRun sp a ops).2 op).1], (sp (seqRun sp a ops).2 op).2)
  | [], a, op => rfl
  | x :: ops, a, op => by
    simp only [List.cons_append, seqRun]
    rw [seqRun_concat sp ops]

theorem run_append (o : Shared σ ω κ ρ) : ∀ (xs ys : List Nat) (w : World σ ω κ ρ),
    o.run w (xs ++ ys) = (o.run w xs).bind (fun w => o.run w ys)
  | [], ys, w => rfl
  | x :: xs, ys, w => by
    simp only [List.cons_append, Shared.run]
    cases h : o.step w x with
    | ok w' => simp only [Res.ok_bind]; exact run_append o xs ys w'
    | ub => rfl
    | fatal => rfl

theorem returned_concat_same (log : List (Nat × ω × ρ)) (t : Nat) (op : ω) (r : ρ) :
    returned (log ++ [(t, op, r)]) t = returned log t ++ [op] := by
  simp [returned]

theorem returned_concat_ne (log : List (Nat × ω × ρ)) {t u : Nat} (h : u ≠ t) (op : ω) (r : ρ) :
    returned (log ++ [(t, op, r)]) u = returned log u := by
  have : (t == u) = false := by simpa using fun e : t = u => h e.symm
  simp [returned, this]

/-- What every interleaving keeps up. -/
structure SharedInv (o : Shared σ ω κ ρ) (sp : α → ω → ρ × α) (R : Nat → σ → α → Prop) (kd : ω → κ) (a : α)
    (prog : Nat → List ω) (w : World σ ω κ ρ) : Prop where
  rel : R w.log.length w.obj (seqRun sp a (w.log.map (fun x => x.2.1))).2
  answers : w.log.map (fun x => x.2.2) = (seqRun sp a (w.log.map (fun x => x.2.1))).1
  order : ∀ t, returned w.log t ++ (pending (w.phase t) ++ w.todo t) = prog t
  passed : ∀ t op, pending (w.phase t) = [op] → o.check op w.obj = none
  held : ∀ t op k, w.phase t = .hold op k → w.holder = some t ∧ k = kd op
  holder : ∀ t, w.holder = some t → ∃ op k, w.phase t = .hold op k

/-- What the calls of an object do by themselves, and that what a call reads first stays true while other threads' calls are
made.  `G` is what else a call needs when it takes the semaphore (memory from the allocator). -/
structure SharedOk (o : Shared σ ω κ ρ) (sp : α → ω → ρ × α) (R : Nat → σ → α → Prop) (G : ω → σ → Prop) (kd : ω → κ)
    (prog : Nat → List ω) (N : Nat) : Prop where
  enter : ∀ t op, op ∈ prog t → ∀ s, o.enter op s = .ok (s, kd op)
  settled : ∀ n s a t op r, op ∈ prog t → R n s a → n < N → o.check op s = some r → (sp a op).1 = r ∧ R (n + 1) s (sp a op).2
  done : ∀ n s a t op, op ∈ prog t → R n s a → n < N → o.check op s = none → G op s →
    ∃ s', o.leave op (kd op) s = .ok ((sp a op).1, s') ∧ R (n + 1) s' (sp a op).2
  stable : ∀ n s a t u op op' s', t ≠ u → op ∈ prog t → op' ∈ prog u → R n s a → n < N → o.check op s = none →
    o.check op' s = none → G op' s → o.leave op' (kd op') s = .ok ((sp a op').1, s') → R (n + 1) s' (sp a op').2 →
    o.check op s' = none

theorem mem_of_pending {w : World σ ω κ ρ} {prog : Nat → List ω} {t : Nat} {op : ω}
    (h : returned w.log t ++ (pending (w.phase t) ++ w.todo t) = prog t) (hp : pending (w.phase t) = [op]) : op ∈ prog t := by
  rw [← h, hp]; simp

variable {o : Shared σ ω κ ρ} {sp : α → ω → ρ × α} {R : Nat → σ → α → Prop} {G : ω → σ → Prop} {kd : ω → κ} {a : α}
  {prog : Nat → List ω} {N : Nat}

theorem shared_start {s : σ} (h : R 0 s a) : SharedInv o sp R kd a prog (World.start s prog) where
  rel := h
  answers := rfl
  order := by intro t; rfl
  passed := by intro t op h; simp [World.start, pending] at h
  held := by intro t op k h; simp [World.start] at h
  holder := by intro t h; simp [World.start] at h

theorem shared_step (hk : SharedOk o sp R G kd prog N) {w : World σ ω κ ρ} (h : SharedInv o sp R kd a prog w)
    (hn : w.log.length < N) (hg : ∀ t op k, w.phase t = .hold op k → G op w.obj) (t : Nat) :
    ∃ w', o.step w t = .ok w' ∧ SharedInv o sp R kd a prog w' ∧ w'.log.length ≤ w.log.length + 1 := by
  unfold Shared.step
  cases hp : w.phase t with
  | rest =>
    simp only []
    cases ht : w.todo t with
    | nil => exact ⟨w, rfl, h, by omega⟩
    | cons op ops =>
      have hop : op ∈ prog t := by rw [← h.order t, ht]; simp
      simp only []
      cases hc : o.check op w.obj with
      | some r =>
        obtain ⟨h1, h2⟩ := hk.settled _ _ _ t op r hop h.rel hn hc
        refine ⟨_, rfl, ⟨?_, ?_, ?_, h.passed, h.held, h.holder⟩, by simp⟩
        · simp only [List.map_append, List.map_cons, List.map_nil, seqRun_concat, List.length_append, List.length_singleton]
          exact h2
        · simp only [List.map_append, List.map_cons, List.map_nil, seqRun_concat, h.answers, h1]
        · intro u
          by_cases e : u = t
          · subst e
            have := h.order u
            rw [hp, ht] at this
            simp only [returned_concat_same, putAt_same, hp]
            rw [← this]
            simp [pending]
          · simp only [returned_concat_ne _ e, putAt_ne _ _ e]
            exact h.order u
      | none =>
        refine ⟨_, rfl, ⟨h.rel, h.answers, ?_, ?_, ?_, ?_⟩, by simp⟩
        · intro u
          by_cases e : u = t
          · subst e
            have := h.order u
            rw [hp, ht] at this
            simp only [putAt_same]
            rw [← this]
            simp [pending]
          · simp only [putAt_ne _ _ e]
            exact h.order u
        · intro u op' hu
          by_cases e : u = t
          · subst e
            simp only [putAt_same, pending, List.cons.injEq, and_true] at hu
            subst hu; exact hc
          · simp only [putAt_ne _ _ e] at hu
            exact h.passed u op' hu
        · intro u op' k hu
          by_cases e : u = t
          · subst e; simp [putAt_same] at hu
          · simp only [putAt_ne _ _ e] at hu
            exact h.held u op' k hu
        · intro u hu
          by_cases e : u = t
          · subst e
            obtain ⟨op', k, hh⟩ := h.holder u hu
            rw [hp] at hh; cases hh
          · simp only [putAt_ne _ _ e]
            exact h.holder u hu
  | wait op =>
    have hpend : pending (w.phase t) = [op] := by rw [hp]; rfl
    have hop := mem_of_pending (h.order t) hpend
    simp only []
    cases hh : w.holder with
    | some u => exact ⟨w, rfl, h, by omega⟩
    | none =>
      simp only [hk.enter t op hop w.obj, Res.ok_bind]
      refine ⟨_, rfl, ⟨h.rel, h.answers, ?_, ?_, ?_, ?_⟩, by simp⟩
      · intro u
        by_cases e : u = t
        · subst e
          have := h.order u
          rw [hp] at this
          simp only [putAt_same]
          exact this
        · simp only [putAt_ne _ _ e]
          exact h.order u
      · intro u op' hu
        by_cases e : u = t
        · subst e
          simp only [putAt_same, pending, List.cons.injEq, and_true] at hu
          subst hu; exact h.passed u op hpend
        · simp only [putAt_ne _ _ e] at hu
          exact h.passed u op' hu
      · intro u op' k hu
        by_cases e : u = t
        · subst e
          simp only [putAt_same, CallPhase.hold.injEq] at hu
          exact ⟨rfl, by rw [← hu.2, hu.1]⟩
        · simp only [putAt_ne _ _ e] at hu
          have := (h.held u op' k hu).1
          rw [hh] at this; cases this
      · intro u hu
        simp only [Option.some.injEq] at hu
        subst hu
        exact ⟨op, kd op, by simp [putAt_same]⟩
  | hold op k =>
    have hpend : pending (w.phase t) = [op] := by rw [hp]; rfl
    have hop := mem_of_pending (h.order t) hpend
    have hc := h.passed t op hpend
    obtain ⟨hht, hkd⟩ := h.held t op k hp
    subst hkd
    obtain ⟨s', h1, h2⟩ := hk.done _ _ _ t op hop h.rel hn hc (hg t op _ hp)
    simp only [h1, Res.ok_bind]
    refine ⟨_, rfl, ⟨?_, ?_, ?_, ?_, ?_, ?_⟩, by simp⟩
    · simp only [List.map_append, List.map_cons, List.map_nil, seqRun_concat, List.length_append, List.length_singleton]
      exact h2
    · simp only [List.map_append, List.map_cons, List.map_nil, seqRun_concat, h.answers]
    · intro u
      by_cases e : u = t
      · subst e
        have := h.order u
        rw [hp] at this
        simp only [returned_concat_same, putAt_same]
        rw [← this]
        simp [pending]
      · simp only [returned_concat_ne _ e, putAt_ne _ _ e]
        exact h.order u
    · intro u op' hu
      by_cases e : u = t
      · subst e
        simp [putAt_same, pending] at hu
      · simp only [putAt_ne _ _ e] at hu
        exact hk.stable _ _ _ u t op' op s' e (mem_of_pending (h.order u) hu) hop h.rel hn (h.passed u op' hu) hc
          (hg t op _ hp) h1 h2
    · intro u op' k hu
      by_cases e : u = t
      · subst e; simp [putAt_same] at hu
      · simp only [putAt_ne _ _ e] at hu
        have := (h.held u op' k hu).1
        rw [hht] at this
        injection this with this
        exact absurd this.symm e
    · intro u hu; simp at hu

/-- The whole schedule. -/
theorem shared_run (hk : SharedOk o sp R G kd prog N) : ∀ (xs : List Nat) (w : World σ ω κ ρ),
    SharedInv o sp R kd a prog w → w.log.length + xs.length ≤ N →
    (∀ ys w', ys <+: xs → o.run w ys = .ok w' → ∀ t op k, w'.phase t = .hold op k → G op w'.obj) →
    ∃ w', o.run w xs = .ok w' ∧ SharedInv o sp R kd a prog w'
  | [], w, h, _, _ => ⟨w, rfl, h⟩
  | x :: xs, w, h, hn, hg => by
    obtain ⟨w1, h1, h2, h3⟩ := shared_step hk h (by simp at hn; omega)
      (hg [] w (List.nil_prefix) rfl) x
    obtain ⟨w2, h4, h5⟩ := shared_run hk xs w1 h2 (by simp at hn; omega)
      (fun ys w' hy hr => hg (x :: ys) w' (by simpa [List.cons_prefix_cons] using hy) (by simp only [Shared.run, h1, Res.ok_bind]; exact hr))
    exact ⟨w2, by simp only [Shared.run, h1, Res.ok_bind]; exact h4, h5⟩

end Wizard

import Verif.Lemmas.ExcThreads
/-! C123: threads that share exceptions. -/
namespace Wizard.Props
open Wizard Wizard.Spec.Exc

/-- The call a thread is in. -/
def current : ExcPhase → List ExcOp
  | .rest => []
  | .throw k e => [.throw k e]
  | .thrown k e => [.throw k e]
  | .clear _ op => [op]
  | .cleared _ op => [op]
  | .caught k => [.caught k]
  | .delivered k => [.caught k]
  | .inherit k j => [.inherit k j]
  | .loop k j _ => [.inherit k j]
  | .loopThrown k j _ => [.inherit k j]

/-- The calls of a thread that have returned, in order. -/
def ExcThreads.ended (w : ExcThreads) (t : Nat) : List ExcOp := (w.returned.filter (fun r => r.1 == t)).map (·.2)

theorem ended_step {fold : Byte → Byte} {w w' : ExcThreads} {t : Nat} (e : excThreadStep fold w t = .ok w') (u : Nat) :
    ExcThreads.ended w' u ++ current (w'.phase u) ++ w'.todo u = ExcThreads.ended w u ++ current (w.phase u) ++ w.todo u := by
  by_cases hu : u = t
  · subst hu
    unfold excThreadStep at e
    cases hp : w.phase u with
    | rest =>
      simp only [hp] at e
      cases hd : w.todo u with
      | nil => simp only [hd] at e; cases e; rw [hp, hd]
      | cons op ops =>
        simp only [hd] at e; cases e
        simp only [putAt, if_true, ExcThreads.ended]
        cases op <;> simp [excBegin, current]
    | throw k x =>
      simp only [hp] at e
      cases hk : w.holder k with
      | some v => simp only [hk] at e; cases e; rw [hp]
      | none =>
        simp only [hk] at e
        cases hx : throwException fold (w.info k) x with
        | ok y => rw [hx, Res.ok_bind] at e; cases e; simp [putAt, current, ExcThreads.ended]
        | ub => rw [hx] at e; cases e
        | fatal => rw [hx] at e; cases e
    | thrown k x => simp only [hp] at e; cases e; simp [putAt, current, ExcThreads.ended]
    | clear k op =>
      simp only [hp] at e
      cases hk : w.holder k with
      | some v => simp only [hk] at e; cases e; rw [hp]
      | none => simp only [hk] at e; cases e; simp [putAt, current, ExcThreads.ended]
    | cleared k op => simp only [hp] at e; cases e; simp [putAt, current, ExcThreads.ended]
    | caught k =>
      simp only [hp] at e
      cases hk : w.holder k with
      | some v => simp only [hk] at e; cases e; rw [hp]
      | none => simp only [hk] at e; cases e; simp [putAt, current, ExcThreads.ended]
    | delivered k => simp only [hp] at e; cases e; simp [putAt, current, ExcThreads.ended]
    | inherit k j =>
      simp only [hp] at e
      cases hk : w.holder j with
      | some v => simp only [hk] at e; cases e; rw [hp]
      | none => simp only [hk] at e; cases e; simp [putAt, current, ExcThreads.ended]
    | loop k j ps =>
      cases ps with
      | nil => simp only [hp] at e; cases e; simp [putAt, current, ExcThreads.ended]
      | cons x ps =>
        simp only [hp] at e
        cases hk : w.holder k with
        | some v => simp only [hk] at e; cases e; rw [hp]
        | none =>
          simp only [hk] at e
          cases hx : throwException fold (w.info k) x with
          | ok y => rw [hx, Res.ok_bind] at e; cases e; simp [putAt, current, ExcThreads.ended]
          | ub => rw [hx] at e; cases e
          | fatal => rw [hx] at e; cases e
    | loopThrown k j ps => simp only [hp] at e; cases e; simp [putAt, current, ExcThreads.ended]
  · obtain ⟨o1, o2⟩ := excStep_others e hu
    rw [o1, o2]
    have hr : ∃ l, w'.returned = w.returned ++ l ∧ ∀ r ∈ l, r.1 = t := by
      unfold excThreadStep at e
      repeat' split at e
      all_goals first
        | (cases e; exact ⟨[], (List.append_nil _).symm, fun _ h => nomatch h⟩)
        | (cases e; exact ⟨_, rfl, fun r h => by cases List.mem_singleton.mp h; rfl⟩)
        | (rename_i k x _ _ _
           cases hx : throwException fold (w.info k) x with
           | ok y => rw [hx, Res.ok_bind] at e; cases e; exact ⟨[], (List.append_nil _).symm, fun _ h => nomatch h⟩
           | ub => rw [hx] at e; cases e
           | fatal => rw [hx] at e; cases e)
        | (rename_i k _ x _ _ _ _
           cases hx : throwException fold (w.info k) x with
           | ok y => rw [hx, Res.ok_bind] at e; cases e; exact ⟨[], (List.append_nil _).symm, fun _ h => nomatch h⟩
           | ub => rw [hx] at e; cases e
           | fatal => rw [hx] at e; cases e)
    obtain ⟨l, l1, l2⟩ := hr
    have : ExcThreads.ended w' u = ExcThreads.ended w u := by
      unfold ExcThreads.ended
      rw [l1, List.filter_append]
      have : l.filter (fun r => r.1 == u) = [] := by
        rw [List.filter_eq_nil_iff]
        intro r h
        rw [l2 r h]
        simp only [beq_iff_eq]
        exact fun e => hu e.symm
      rw [this, List.append_nil]
    rw [this]

theorem ended_run {fold : Byte → Byte} (u : Nat) : ∀ (xs : List Nat) {w w' : ExcThreads}, excThreadRun fold w xs = .ok w' →
    ExcThreads.ended w' u ++ current (w'.phase u) ++ w'.todo u = ExcThreads.ended w u ++ current (w.phase u) ++ w.todo u
  | [], w, w', e => by cases e; rfl
  | t :: ts, w, w', e => by
    rw [excThreadRun] at e
    cases h : excThreadStep fold w t with
    | ok w1 => rw [h, Res.ok_bind] at e; rw [ended_run u ts e, ended_step h u]
    | ub => rw [h] at e; cases e
    | fatal => rw [h] at e; cases e

/-- **C123** Threads share exceptions, and exceptions inherit only downwards in some order.  Then no thread goes wrong and none waits
forever: whatever happened so far, every thread can still make all its calls, and they return in their order. -/
theorem C123_returns_partial (fold : Byte → Byte) (hf : FoldOK fold) (rank : Nat → Nat) (prog : Nat → List ExcOp)
    (text : ∀ t k e, .throw k e ∈ prog t → ExcElem.Text e) (order : ∀ t k j, .inherit k j ∈ prog t → rank k < rank j)
    (xs : List Nat) (t : Nat) :
    ∃ ys w, excThreadRun fold (.start prog) (xs ++ ys) = .ok w ∧ ExcThreads.ended w t = prog t := by
  have h0 : Ranked rank (.start prog) := by
    refine ⟨excThread_start ?_, ?_, fun _ => trivial⟩
    · intro t op h
      cases op with
      | throw k e => exact text t k e h
      | _ => exact trivial
    · intro t op h
      cases op with
      | inherit k j => exact order t k j h
      | _ => exact trivial
  have run : ∀ (xs : List Nat) (w : ExcThreads), Ranked rank w → ∃ w', excThreadRun fold w xs = .ok w' ∧ Ranked rank w' := by
    intro xs
    induction xs with
    | nil => intro w h; exact ⟨w, rfl, h⟩
    | cons x xs ih =>
      intro w h
      obtain ⟨w1, e1, h1⟩ := ranked_step hf h x
      obtain ⟨w2, e2, h2⟩ := ih w1 h1
      exact ⟨w2, by rw [excThreadRun, e1, Res.ok_bind, e2], h2⟩
  obtain ⟨w, e, h⟩ := run xs _ h0
  obtain ⟨w', ⟨⟨ys, e'⟩, _, _⟩, p, d⟩ := calls_end hf t _ w h rfl
  have e'' : excThreadRun fold (.start prog) (xs ++ ys) = .ok w' := by rw [excThreadRun_append, e]; exact e'
  refine ⟨ys, w', e'', ?_⟩
  have := ended_run t _ e''
  rw [p, d] at this
  simpa [ExcThreads.start, current, ExcThreads.ended] using this

/-- The log has the exception, or one that says the same. -/
def Kept (fold : Byte → Byte) (w : ExcThreads) (k : Nat) (e : ExcElem) : Prop := ∃ p ∈ (w.info k).log, same fold p e

theorem record_keeps {fold : Byte → Byte} (l : List ExcElem) (e : ExcElem) : ∀ p ∈ l, p ∈ record fold l e := by
  intro p hp
  unfold record
  split
  · split
    · exact hp
    · exact List.mem_append_left _ hp
  · rename_i h; rw [List.getLast?_eq_none_iff] at h; rw [h] at hp; cases hp

theorem record_has {fold : Byte → Byte} (l : List ExcElem) (e : ExcElem) : ∃ p ∈ record fold l e, same fold p e := by
  unfold record
  split
  · rename_i p h
    split
    · rename_i hs; exact ⟨p, List.mem_of_getLast? h, hs⟩
    · exact ⟨e, List.mem_append_right _ (List.mem_singleton.mpr rfl), rfl, rfl, rfl⟩
  · exact ⟨e, List.mem_singleton.mpr rfl, rfl, rfl, rfl⟩

/-- Calls that take nothing away. -/
def OnlyAdds : ExcOp → Prop
  | .throw .. => True
  | .inherit .. => True
  | _ => False

def PhaseAdds (fold : Byte → Byte) (w : ExcThreads) : ExcPhase → Prop
  | .rest => True
  | .throw .. => True
  | .thrown k e => Kept fold w k e
  | .inherit .. => True
  | .loop k j ps => ∃ before, (w.info j).log = before ++ ps ∧ ∀ e ∈ before, Kept fold w k e
  | .loopThrown k j ps => ∃ before, (w.info j).log = before ++ ps ∧ ∀ e ∈ before, Kept fold w k e
  | _ => False

structure KeptInv (fold : Byte → Byte) (w : ExcThreads) : Prop where
  inv : ExcInv w
  todo : ∀ t, ∀ op ∈ w.todo t, OnlyAdds op
  phase : ∀ t, PhaseAdds fold w (w.phase t)
  kept : ∀ t k e, (t, .throw k e) ∈ w.returned → Kept fold w k e

/-- When logs only grow, and the semaphore of those that grow is not held by others, what holds of threads remains. -/
theorem phaseAdds_mono {fold : Byte → Byte} {w w' : ExcThreads} {p : ExcPhase} (h : PhaseAdds fold w p)
    (grow : ∀ k, ∀ e ∈ (w.info k).log, e ∈ (w'.info k).log) (fix : ∀ m, Holds p m → (∃ k j ps, p = .loop k j ps ∨ p = .loopThrown k j ps) → (∀ k j ps, p = .loopThrown k j ps → m = j) → (w'.info m).log = (w.info m).log) :
    PhaseAdds fold w' p := by
  have hk : ∀ k e, Kept fold w k e → Kept fold w' k e := by
    rintro k e ⟨q, hq, hs⟩; exact ⟨q, grow k q hq, hs⟩
  cases p with
  | rest => trivial
  | throw => trivial
  | thrown k e => exact hk k e h
  | inherit => trivial
  | loop k j ps =>
    obtain ⟨b, b1, b2⟩ := h
    exact ⟨b, by rw [fix j rfl ⟨k, j, ps, .inl rfl⟩ (by intro a b c e; cases e)]; exact b1, fun e he => hk k e (b2 e he)⟩
  | loopThrown k j ps =>
    obtain ⟨b, b1, b2⟩ := h
    exact ⟨b, by rw [fix j (.inr rfl) ⟨k, j, ps, .inr rfl⟩ (by intro a b c e; cases e; rfl)]; exact b1, fun e he => hk k e (b2 e he)⟩
  | clear => exact h
  | cleared => exact h
  | caught => exact h
  | delivered => exact h

theorem kept_step {fold : Byte → Byte} (hf : FoldOK fold) {w : ExcThreads} (h : KeptInv fold w) (t : Nat) :
    ∃ w', excThreadStep fold w t = .ok w' ∧ KeptInv fold w' := by
  obtain ⟨w', e, i⟩ := excThread_step hf h.inv t
  refine ⟨w', e, ?_⟩
  have ha := h.phase t
  have htx := h.inv.phase t
  -- the same logs
  have plain : w'.info = w.info → (∀ op ∈ w'.todo t, OnlyAdds op) → PhaseAdds fold w (w'.phase t) →
      (∀ u k x, (u, .throw k x) ∈ w'.returned → Kept fold w k x) → KeptInv fold w' := by
    intro hi hd hp hr
    have mono : ∀ p, PhaseAdds fold w p → PhaseAdds fold w' p := fun p hp => phaseAdds_mono hp (by rw [hi]; exact fun _ _ h => h) (by intros; rw [hi])
    refine ⟨i, ?_, ?_, ?_⟩
    · intro u
      by_cases hu : u = t
      · subst hu; exact hd
      · rw [(excStep_others e hu).2]; exact h.todo u
    · intro u
      by_cases hu : u = t
      · subst hu; exact mono _ hp
      · rw [(excStep_others e hu).1]; exact mono _ (h.phase u)
    · intro u k x hx
      have := hr u k x hx
      unfold Kept at this ⊢; rw [hi]; exact this
  -- one more element
  have more : ∀ k x y, w.holder k = none → throwException fold (w.info k) x = .ok y → ExcElem.Text x → w'.info = putAt w.info k y →
      w'.todo = w.todo → w'.returned = w.returned → (Kept fold w' k x → (∀ m, m ≠ k → (w'.info m).log = (w.info m).log) → (∀ q z, Kept fold w q z → Kept fold w' q z) → PhaseAdds fold w' (w'.phase t)) → KeptInv fold w' := by
    intro k x y hk hy hx hi hd hr hp
    obtain ⟨y', f1, f2, f3⟩ := throw_spec hf (h.inv.ok k) hx
    rw [hy] at f1; cases f1
    have grow : ∀ m, ∀ z ∈ (w.info m).log, z ∈ (w'.info m).log := by
      intro m z hz
      rw [hi]
      by_cases hm : m = k
      · subst hm; simp only [putAt, if_true]; rw [f3]; exact record_keeps _ _ z hz
      · simp only [putAt, if_neg hm]; exact hz
    have fix : ∀ m, m ≠ k → (w'.info m).log = (w.info m).log := by
      intro m hm; rw [hi]; simp only [putAt, if_neg hm]
    have hkept : ∀ q z, Kept fold w q z → Kept fold w' q z := by
      rintro q z ⟨a, b, c⟩; exact ⟨a, grow q a b, c⟩
    refine ⟨i, by rw [hd]; exact h.todo, ?_, ?_⟩
    · intro u
      by_cases hu : u = t
      · subst hu
        refine hp ?_ fix hkept
        obtain ⟨q, q1, q2⟩ := record_has (fold := fold) (w.info k).log x
        exact ⟨q, by rw [hi]; simp only [putAt, if_true]; rw [f3]; exact q1, q2⟩
      · rw [(excStep_others e hu).1]
        refine phaseAdds_mono (h.phase u) grow ?_
        intro m hm _ _
        refine fix m ?_
        intro e; subst e
        have := (h.inv.locks m u).mpr hm
        rw [hk] at this; cases this
    · intro u q z hz
      rw [hr] at hz
      exact hkept q z (h.kept u q z hz)
  have e0 := e
  unfold excThreadStep at e
  cases hp : w.phase t with
  | rest =>
    simp only [hp] at e
    cases hd : w.todo t with
    | nil => simp only [hd] at e; cases e; exact h
    | cons op ops =>
      simp only [hd] at e; cases e
      have hop := h.todo t op (by rw [hd]; exact List.mem_cons_self ..)
      refine plain rfl ?_ ?_ h.kept
      · simp only [putAt, if_true]; exact fun o ho => h.todo t o (by rw [hd]; exact List.mem_cons_of_mem _ ho)
      · simp only [putAt, if_true]; cases op <;> first | exact trivial | exact hop.elim
  | throw k x =>
    simp only [hp] at e
    rw [hp] at htx
    cases hk : w.holder k with
    | some u => simp only [hk] at e; cases e; exact h
    | none =>
      simp only [hk] at e
      cases hx : throwException fold (w.info k) x with
      | ok y =>
        rw [hx, Res.ok_bind] at e; cases e
        refine more k x y hk hx htx rfl rfl rfl ?_
        intro a _ _; simp only [putAt, if_true]; exact a
      | ub => rw [hx] at e; cases e
      | fatal => rw [hx] at e; cases e
  | thrown k x =>
    simp only [hp] at e; cases e
    rw [hp] at ha
    refine plain rfl (h.todo t) (by simp [putAt, PhaseAdds]) ?_
    intro u q z hz
    rcases List.mem_append.mp hz with hz | hz
    · exact h.kept u q z hz
    · cases List.mem_singleton.mp hz; exact ha
  | inherit k j =>
    simp only [hp] at e
    cases hk : w.holder j with
    | some u => simp only [hk] at e; cases e; exact h
    | none =>
      simp only [hk] at e; cases e
      exact plain rfl (h.todo t) (by simp only [putAt, if_true]; exact ⟨[], rfl, fun _ h => nomatch h⟩) h.kept
  | loop k j ps =>
    rw [hp] at ha htx
    cases ps with
    | nil =>
      simp only [hp] at e; cases e
      refine plain rfl (h.todo t) (by simp [putAt, PhaseAdds]) ?_
      intro u q z hz
      rcases List.mem_append.mp hz with hz | hz
      · exact h.kept u q z hz
      · cases List.mem_singleton.mp hz
    | cons x ps =>
      simp only [hp] at e
      cases hk : w.holder k with
      | some u => simp only [hk] at e; cases e; exact h
      | none =>
        simp only [hk] at e
        have hj : w.holder j = some t := (h.inv.locks j t).mpr (by rw [hp]; exact rfl)
        cases hx : throwException fold (w.info k) x with
        | ok y =>
          rw [hx, Res.ok_bind] at e; cases e
          refine more k x y hk hx (htx x (List.mem_cons_self ..)) rfl rfl rfl ?_
          intro a b c
          simp only [putAt, if_true]
          obtain ⟨before, b1, b2⟩ := ha
          refine ⟨before ++ [x], ?_, ?_⟩
          · have := b j (by intro e; subst e; rw [hk] at hj; cases hj)
            rw [this, b1]; simp
          · intro z hz
            rcases List.mem_append.mp hz with hz | hz
            · exact c k z (b2 z hz)
            · cases List.mem_singleton.mp hz; exact a
        | ub => rw [hx] at e; cases e
        | fatal => rw [hx] at e; cases e
  | loopThrown k j ps =>
    simp only [hp] at e; cases e
    rw [hp] at ha
    exact plain rfl (h.todo t) (by simp only [putAt, if_true]; exact ha) h.kept
  | clear => rw [hp] at ha; exact ha.elim
  | cleared => rw [hp] at ha; exact ha.elim
  | caught => rw [hp] at ha; exact ha.elim
  | delivered => rw [hp] at ha; exact ha.elim

/-- **C123** While threads only throw and inherit, in any order, nothing is lost under any schedule: no thread goes wrong; an exception
that was thrown is in the log, or one that says the same; and whoever is about to return from inheriting has handed on all that the
other one has then. -/
theorem C123_kept_partial (fold : Byte → Byte) (hf : FoldOK fold) (prog : Nat → List ExcOp)
    (adds : ∀ t, ∀ op ∈ prog t, OnlyAdds op) (text : ∀ t k e, .throw k e ∈ prog t → ExcElem.Text e) (xs : List Nat) :
    ∃ w, excThreadRun fold (.start prog) xs = .ok w ∧ (∀ t k e, (t, .throw k e) ∈ w.returned → Kept fold w k e) ∧
      ∀ t k j, w.phase t = .loop k j [] → ∀ e ∈ (w.info j).log, Kept fold w k e := by
  have h0 : KeptInv fold (.start prog) := by
    refine ⟨excThread_start ?_, adds, fun _ => trivial, (by intro t k e h; cases h)⟩
    intro t op h
    cases op with
    | throw k e => exact text t k e h
    | _ => exact trivial
  have run : ∀ (xs : List Nat) (w : ExcThreads), KeptInv fold w → ∃ w', excThreadRun fold w xs = .ok w' ∧ KeptInv fold w' := by
    intro xs
    induction xs with
    | nil => intro w h; exact ⟨w, rfl, h⟩
    | cons x xs ih =>
      intro w h
      obtain ⟨w1, e1, h1⟩ := kept_step hf h x
      obtain ⟨w2, e2, h2⟩ := ih w1 h1
      exact ⟨w2, by rw [excThreadRun, e1, Res.ok_bind, e2], h2⟩
  obtain ⟨w, e, h⟩ := run xs _ h0
  refine ⟨w, e, h.kept, ?_⟩
  intro t k j hp
  have := h.phase t
  rw [hp] at this
  obtain ⟨before, b1, b2⟩ := this
  rw [b1, List.append_nil]; exact b2

/-- An exception with a reason. -/
def someExc (n : Nat) (r : Byte) : ExcElem := ⟨n, some [r], none⟩

/-- Two threads throw at the same exception, a third one inherits: all return, nothing is lost. -/
example : ∃ w, excThreadRun id (.start (fun t => if t = 0 then [.throw 1 (someExc 400 97)] else if t = 1 then [.throw 1 (someExc 401 98)]
      else if t = 2 then [.inherit 0 1] else [])) ([1, 0, 0, 2, 0, 1, 1, 2, 2, 2, 2, 2, 2]) = .ok w ∧
    (w.info 0).log = [someExc 400 97, someExc 401 98] ∧ w.returned.map (·.1) = [0, 1, 2] := ⟨_, rfl, by decide +kernel, by decide +kernel⟩

/-- Calls of handlers are never undone. -/
theorem calls_kept {fold : Byte → Byte} {w w' : ExcThreads} {t : Nat} (h : excThreadStep fold w t = .ok w') : ∀ c ∈ w.calls, c ∈ w'.calls := by
  intro c hc
  simp only [excThreadStep] at h
  split at h <;> (try split at h) <;> (try (cases h; first | exact hc | exact List.mem_append_left _ hc))
  all_goals
    generalize throwException fold _ _ = x at h
    cases x with
    | ok x => cases h; exact hc
    | ub => cases h
    | fatal => cases h

theorem calls_kept_run {fold : Byte → Byte} : ∀ (ys : List Nat) {w w' : ExcThreads}, excThreadRun fold w ys = .ok w' → ∀ c ∈ w.calls, c ∈ w'.calls
  | [], _, _, h, c, hc => by cases h; exact hc
  | y :: ys, w, w', h, c, hc => by
    rw [excThreadRun] at h
    cases hx : excThreadStep fold w y with
    | ok v => rw [hx] at h; exact calls_kept_run ys h c (calls_kept hx c hc)
    | ub => rw [hx] at h; cases h
    | fatal => rw [hx] at h; cases h

theorem catch_all (sev : Nat) : ∀ (l : List ExcElem), ∀ e ∈ l, warningException ≤ e.severity → e.severity < fatalErrorException →
    ((if e.severity < errorException then Handler.warning else Handler.error), e) ∈ (catchLoop (fun _ => false) sev l).1
  | p :: ps, e, he, h1, h2 => by
    have ih := fun h => catch_all sev ps e h h1 h2
    rw [catchLoop]
    rcases List.mem_cons.mp he with rfl | he
    · by_cases h3 : e.severity < errorException
      · have : (Handler.warning, e) ∈ (if e.severity ≥ warningException ∧ e.severity < errorException then [(Handler.warning, e)] else []) := by rw [if_pos ⟨h1, h3⟩]; simp
        rw [if_pos h3]
        split <;> simp only [Bool.false_eq_true, if_false, List.mem_append] <;> exact .inl (by simp only [this, true_or])
      · have : (Handler.error, e) ∈ (if e.severity ≥ errorException ∧ e.severity < fatalErrorException then [(Handler.error, e)] else []) := by rw [if_pos ⟨by omega, h2⟩]; simp
        rw [if_neg h3]
        split <;> simp only [Bool.false_eq_true, if_false, List.mem_append] <;> exact .inl (by simp only [this, true_or, or_true])
    · split <;> simp only [Bool.false_eq_true, if_false, List.mem_append] <;> exact .inr (ih he)

/-- **C123** Whatever happened so far and whatever happens next, a thread that gets the semaphore in `CatchException` hands every warning and
error that is in the log then to its handler. -/
theorem C123_delivered_partial (fold : Byte → Byte) (prog : Nat → List ExcOp) (xs ys : List Nat) (t k : Nat) (w w' : ExcThreads)
    (h : excThreadRun fold (.start prog) xs = .ok w) (hp : w.phase t = .caught k) (hh : w.holder k = none)
    (h' : excThreadRun fold (.start prog) (xs ++ t :: ys) = .ok w') : ∀ e ∈ (w.info k).log, warningException ≤ e.severity → e.severity < fatalErrorException →
    (k, (if e.severity < errorException then Handler.warning else Handler.error), e) ∈ w'.calls := by
  intro e he h1 h2
  rw [excThreadRun_append, h] at h'
  simp only [Res.bind] at h'
  rw [excThreadRun] at h'
  simp only [excThreadStep, hp, hh, Res.ok_bind] at h'
  refine calls_kept_run ys h' _ (List.mem_append_right _ ?_)
  exact List.mem_map.mpr ⟨_, catch_all _ _ e he h1 h2, rfl⟩

/-- One thread throws, another catches. -/
example : ∃ w w', excThreadRun id (.start (fun t => if t = 0 then [.caught 0] else if t = 1 then [.throw 0 (someExc 400 97)] else [])) [1, 1, 1, 0] = .ok w ∧
    w.phase 0 = .caught 0 ∧ w.holder 0 = none ∧ (w.info 0).log = [someExc 400 97] ∧
    excThreadRun id (.start (fun t => if t = 0 then [.caught 0] else if t = 1 then [.throw 0 (someExc 400 97)] else [])) ([1, 1, 1, 0] ++ 0 :: [0, 0, 0]) = .ok w' ∧
    w'.calls = [(0, .error, someExc 400 97)] := ⟨_, _, rfl, rfl, rfl, by decide +kernel, rfl, by decide +kernel⟩

/-- **C123 is false** for `CatchException`: it delivers the log and releases the semaphore before it clears the log, and what another thread
throws in between is cleared without having been delivered.  Both calls have returned, the log is empty, no handler was called. -/
theorem C123_lost_violated : ∃ xs w, excThreadRun id (.start (fun t => if t = 0 then [.caught 0] else if t = 1 then [.throw 0 (someExc 400 97)] else [])) xs = .ok w ∧
    ExcThreads.ended w 0 = [.caught 0] ∧ ExcThreads.ended w 1 = [.throw 0 (someExc 400 97)] ∧ (w.info 0).log = [] ∧ w.calls = [] :=
  ⟨[0, 0, 0, 1, 1, 1, 0, 0], _, rfl, rfl, rfl, by decide +kernel, by decide +kernel⟩

/-- If no thread can move, nothing ever happens. -/
theorem stuck {fold : Byte → Byte} {w : ExcThreads} (h : ∀ t, excThreadStep fold w t = .ok w) : ∀ ys, excThreadRun fold w ys = .ok w
  | [] => rfl
  | t :: ts => by rw [excThreadRun, h t, Res.ok_bind]; exact stuck h ts

/-- **C123 is false** for an exception that inherits from itself: `InheritException` has its semaphore and waits for it in
`ThrowException`, forever, whatever the schedule. -/
theorem C123_self_violated : ∃ xs, ∀ ys, ∃ w, excThreadRun id (.start (fun t => if t = 0 then [.throw 0 (someExc 400 97), .inherit 0 0] else []))
    (xs ++ ys) = .ok w ∧ ExcThreads.ended w 0 = [.throw 0 (someExc 400 97)] := by
  have key : ∃ w, excThreadRun id (.start (fun t => if t = 0 then [.throw 0 (someExc 400 97), .inherit 0 0] else [])) [0, 0, 0, 0, 0] = .ok w ∧
      ExcThreads.ended w 0 = [.throw 0 (someExc 400 97)] ∧ ∀ t, excThreadStep id w t = .ok w := by
    refine ⟨_, rfl, rfl, ?_⟩
    intro t
    match t with
    | 0 => rfl
    | t + 1 => rfl
  obtain ⟨w, e, h1, h2⟩ := key
  exact ⟨_, fun ys => ⟨w, by rw [excThreadRun_append, e]; exact stuck h2 ys, h1⟩⟩

/-- **C123 is false** for two exceptions that inherit from each other in two threads: each has the semaphore of its own source and waits for
that of the other, forever, whatever the schedule. -/
theorem C123_cross_violated : ∃ xs, ∀ ys, ∃ w, excThreadRun id (.start (fun t => if t = 0 then [.throw 0 (someExc 400 97), .inherit 1 0]
      else if t = 1 then [.throw 1 (someExc 401 98), .inherit 0 1] else [])) (xs ++ ys) = .ok w ∧
    ExcThreads.ended w 0 = [.throw 0 (someExc 400 97)] ∧ ExcThreads.ended w 1 = [.throw 1 (someExc 401 98)] := by
  have key : ∃ w, excThreadRun id (.start (fun t => if t = 0 then [.throw 0 (someExc 400 97), .inherit 1 0]
      else if t = 1 then [.throw 1 (someExc 401 98), .inherit 0 1] else [])) [0, 0, 0, 1, 1, 1, 0, 0, 1, 1] = .ok w ∧
      ExcThreads.ended w 0 = [.throw 0 (someExc 400 97)] ∧ ExcThreads.ended w 1 = [.throw 1 (someExc 401 98)] ∧
      ∀ t, excThreadStep id w t = .ok w := by
    refine ⟨_, rfl, rfl, rfl, ?_⟩
    intro t
    match t with
    | 0 => rfl
    | 1 => rfl
    | t + 2 => rfl
  obtain ⟨w, e, h0, h1, h2⟩ := key
  exact ⟨_, fun ys => ⟨w, by rw [excThreadRun_append, e]; exact stuck h2 ys, h0, h1⟩⟩

end Wizard.Props

import Verif.Model.ExcThreads
import Verif.Props.Exception
/-! Threads that share exceptions: what all schedules keep up, and how calls end. -/
namespace Wizard.Props
open Wizard Wizard.Spec.Exc

/-- The semaphores a thread has. -/
def Holds : ExcPhase → Nat → Prop
  | .thrown k _, m => m = k
  | .cleared k _, m => m = k
  | .delivered k, m => m = k
  | .loop _ j _, m => m = j
  | .loopThrown k j _, m => m = k ∨ m = j
  | _, _ => False

/-- What a call may be given. -/
def PhaseText : ExcPhase → Prop
  | .throw _ e => ExcElem.Text e
  | .loop _ _ ps => ∀ p ∈ ps, ExcElem.Text p
  | .loopThrown k j ps => k ≠ j ∧ ∀ p ∈ ps, ExcElem.Text p
  | _ => True

/-- The texts a program throws are texts. -/
def ThrowsText : ExcOp → Prop
  | .throw _ e => ExcElem.Text e
  | _ => True

/-- A semaphore is held by the thread that is at a place where it has it. -/
def Locks (holder : Nat → Option Nat) (phase : Nat → ExcPhase) : Prop := ∀ k t, holder k = some t ↔ Holds (phase t) k

theorem Locks.same {holder : Nat → Option Nat} {phase : Nat → ExcPhase} (h : Locks holder phase) {t : Nat} {p : ExcPhase}
    (hp : ∀ m, Holds p m ↔ Holds (phase t) m) : Locks holder (putAt phase t p) := by
  intro m u
  by_cases hu : u = t
  · subst hu; simp only [putAt, if_true]; rw [hp]; exact h m u
  · simp only [putAt, if_neg hu]; exact h m u

theorem Locks.take {holder : Nat → Option Nat} {phase : Nat → ExcPhase} (h : Locks holder phase) {t k : Nat} {p : ExcPhase}
    (hk : holder k = none) (hp : ∀ m, Holds p m ↔ m = k ∨ Holds (phase t) m) :
    Locks (putAt holder k (some t)) (putAt phase t p) := by
  intro m u
  by_cases hu : u = t
  · subst hu
    by_cases hm : m = k
    · subst hm; simp [putAt, hp]
    · simp only [putAt, if_neg hm, if_true]; rw [hp, h m u]; simp [hm]
  · by_cases hm : m = k
    · subst hm
      simp only [putAt, if_true, if_neg hu]
      constructor
      · intro e; cases e; exact absurd rfl hu
      · intro e; have := (h m u).mpr e; rw [hk] at this; cases this
    · simp only [putAt, if_neg hm, if_neg hu]; exact h m u

theorem Locks.release {holder : Nat → Option Nat} {phase : Nat → ExcPhase} (h : Locks holder phase) {t k : Nat} {p : ExcPhase}
    (hk : Holds (phase t) k) (hp : ∀ m, Holds p m ↔ m ≠ k ∧ Holds (phase t) m) :
    Locks (putAt holder k none) (putAt phase t p) := by
  intro m u
  by_cases hm : m = k
  · subst hm
    simp only [putAt, if_true]
    constructor
    · intro e; cases e
    · intro e
      by_cases hu : u = t
      · subst hu; rw [if_pos rfl, hp] at e; exact absurd rfl e.1
      · rw [if_neg hu] at e
        have a := (h m u).mpr e
        have b := (h m t).mpr hk
        rw [a] at b; cases b; exact absurd rfl hu
  · simp only [putAt, if_neg hm]
    by_cases hu : u = t
    · subst hu; rw [if_pos rfl, hp, h m u]; simp [hm]
    · rw [if_neg hu]; exact h m u

/-- What every schedule keeps up. -/
structure ExcInv (w : ExcThreads) : Prop where
  locks : Locks w.holder w.phase
  ok : ∀ k, ExcOK (w.info k)
  text : ∀ t, ∀ op ∈ w.todo t, ThrowsText op
  phase : ∀ t, PhaseText (w.phase t)

theorem putAt_all {α : Type} {P : α → Prop} {f : Nat → α} (h : ∀ k, P (f k)) {t : Nat} {x : α} (hx : P x) : ∀ k, P (putAt f t x k) := by
  intro k
  unfold putAt
  split
  · exact hx
  · exact h k

theorem excThread_step {fold : Byte → Byte} (hf : FoldOK fold) {w : ExcThreads} (h : ExcInv w) (t : Nat) :
    ∃ w', excThreadStep fold w t = .ok w' ∧ ExcInv w' := by
  have ht := h.phase t
  have hl := h.locks
  unfold excThreadStep
  cases hp : w.phase t with
  | rest =>
    simp only []
    cases hd : w.todo t with
    | nil => exact ⟨w, rfl, h⟩
    | cons op ops =>
      have hop := h.text t op (by rw [hd]; exact List.mem_cons_self ..)
      refine ⟨_, rfl, ⟨?_, h.ok, ?_, ?_⟩⟩
      · exact hl.same (by intro m; rw [hp]; cases op <;> simp [excBegin, Holds])
      · exact putAt_all (P := fun l => ∀ op ∈ l, ThrowsText op) h.text (fun o ho => h.text t o (by rw [hd]; exact List.mem_cons_of_mem _ ho))
      · exact putAt_all h.phase (by cases op <;> simp [excBegin, PhaseText]; exact hop)
  | throw k e =>
    simp only []
    rw [hp] at ht
    cases hk : w.holder k with
    | some u => exact ⟨w, rfl, h⟩
    | none =>
      obtain ⟨y, e1, e2, _⟩ := throw_spec hf (h.ok k) ht
      simp only [e1, Res.ok_bind]
      exact ⟨_, rfl, ⟨hl.take hk (by intro m; rw [hp]; simp [Holds]), putAt_all h.ok e2, h.text, putAt_all h.phase trivial⟩⟩
  | thrown k e =>
    refine ⟨_, rfl, ⟨hl.release (by rw [hp]; exact rfl) (by intro m; rw [hp]; simp [Holds]), h.ok, h.text, putAt_all h.phase trivial⟩⟩
  | clear k op =>
    simp only []
    cases hk : w.holder k with
    | some u => exact ⟨w, rfl, h⟩
    | none =>
      exact ⟨_, rfl, ⟨hl.take hk (by intro m; rw [hp]; simp [Holds]), putAt_all h.ok (excClear_ok _), h.text, putAt_all h.phase trivial⟩⟩
  | cleared k op =>
    refine ⟨_, rfl, ⟨hl.release (by rw [hp]; exact rfl) (by intro m; rw [hp]; simp [Holds]), h.ok, h.text, putAt_all h.phase trivial⟩⟩
  | caught k =>
    simp only []
    cases hk : w.holder k with
    | some u => exact ⟨w, rfl, h⟩
    | none =>
      exact ⟨_, rfl, ⟨hl.take hk (by intro m; rw [hp]; simp [Holds]), h.ok, h.text, putAt_all h.phase trivial⟩⟩
  | delivered k =>
    refine ⟨_, rfl, ⟨hl.release (by rw [hp]; exact rfl) (by intro m; rw [hp]; simp [Holds]), h.ok, h.text, putAt_all h.phase trivial⟩⟩
  | inherit k j =>
    simp only []
    cases hk : w.holder j with
    | some u => exact ⟨w, rfl, h⟩
    | none =>
      exact ⟨_, rfl, ⟨hl.take hk (by intro m; rw [hp]; simp [Holds]), h.ok, h.text, putAt_all h.phase (h.ok j).text⟩⟩
  | loop k j ps =>
    rw [hp] at ht
    cases ps with
    | nil =>
      refine ⟨_, rfl, ⟨hl.release (by rw [hp]; exact rfl) (by intro m; rw [hp]; simp [Holds]), h.ok, h.text, putAt_all h.phase trivial⟩⟩
    | cons p ps =>
      simp only []
      cases hk : w.holder k with
      | some u => exact ⟨w, rfl, h⟩
      | none =>
        obtain ⟨y, e1, e2, _⟩ := throw_spec hf (h.ok k) (ht p (List.mem_cons_self ..))
        simp only [e1, Res.ok_bind]
        have hj : w.holder j = some t := (hl j t).mpr (by rw [hp]; exact rfl)
        refine ⟨_, rfl, ⟨hl.take hk (by intro m; rw [hp]; simp [Holds]), putAt_all h.ok e2, h.text, putAt_all h.phase ⟨?_, fun q hq => ht q (List.mem_cons_of_mem _ hq)⟩⟩⟩
        intro e; subst e; rw [hk] at hj; cases hj
  | loopThrown k j ps =>
    rw [hp] at ht
    refine ⟨_, rfl, ⟨hl.release (by rw [hp]; exact .inl rfl) ?_, h.ok, h.text, putAt_all h.phase ht.2⟩⟩
    intro m; rw [hp]; simp only [Holds]
    constructor
    · intro e; subst e; exact ⟨fun e => ht.1 e.symm, .inr rfl⟩
    · rintro ⟨a, b | b⟩
      · exact absurd b a
      · exact b

theorem excThread_run {fold : Byte → Byte} (hf : FoldOK fold) : ∀ (xs : List Nat) {w : ExcThreads}, ExcInv w →
    ∃ w', excThreadRun fold w xs = .ok w' ∧ ExcInv w'
  | [], w, h => ⟨w, rfl, h⟩
  | t :: ts, w, h => by
    obtain ⟨w1, e1, h1⟩ := excThread_step hf h t
    obtain ⟨w2, e2, h2⟩ := excThread_run hf ts h1
    exact ⟨w2, by rw [excThreadRun, e1, Res.ok_bind, e2], h2⟩

theorem excThreadRun_append {fold : Byte → Byte} : ∀ (xs ys : List Nat) (w : ExcThreads),
    excThreadRun fold w (xs ++ ys) = (excThreadRun fold w xs).bind (fun w' => excThreadRun fold w' ys)
  | [], ys, w => rfl
  | t :: ts, ys, w => by
    simp only [List.cons_append, excThreadRun]
    cases h : excThreadStep fold w t with
    | ok w1 => exact excThreadRun_append ts ys w1
    | ub => rfl
    | fatal => rfl

theorem excThread_start {prog : Nat → List ExcOp} (h : ∀ t, ∀ op ∈ prog t, ThrowsText op) : ExcInv (.start prog) :=
  ⟨fun k t => ⟨(fun e => nomatch e), (fun e => nomatch e)⟩, fun _ => ⟨rfl, (by intro p hp; cases hp), fun _ hp => nomatch hp⟩, h, fun _ => trivial⟩

/-- No thread changes what another does next. -/
theorem excStep_others {fold : Byte → Byte} {w w' : ExcThreads} {t : Nat} (e : excThreadStep fold w t = .ok w') {u : Nat} (hu : u ≠ t) :
    w'.phase u = w.phase u ∧ w'.todo u = w.todo u := by
  unfold excThreadStep at e
  split at e
  · split at e <;> cases e
    · exact ⟨rfl, rfl⟩
    · simp [putAt, hu]
  · split at e
    · cases e; exact ⟨rfl, rfl⟩
    · rename_i k x _ _ _
      cases hx : throwException fold (w.info k) x with
      | ok y => rw [hx, Res.ok_bind] at e; cases e; simp [putAt, hu]
      | ub => rw [hx] at e; cases e
      | fatal => rw [hx] at e; cases e
  · cases e; simp [putAt, hu]
  · split at e <;> cases e
    · exact ⟨rfl, rfl⟩
    · simp [putAt, hu]
  · cases e; simp [putAt, hu]
  · split at e <;> cases e
    · exact ⟨rfl, rfl⟩
    · simp [putAt, hu]
  · cases e; simp [putAt, hu]
  · split at e <;> cases e
    · exact ⟨rfl, rfl⟩
    · simp [putAt, hu]
  · cases e; simp [putAt, hu]
  · split at e
    · cases e; exact ⟨rfl, rfl⟩
    · rename_i k _ x _ _ _ _
      cases hx : throwException fold (w.info k) x with
      | ok y => rw [hx, Res.ok_bind] at e; cases e; simp [putAt, hu]
      | ub => rw [hx] at e; cases e
      | fatal => rw [hx] at e; cases e
  · cases e; simp [putAt, hu]

/-- An exception inherits from one of a higher rank. -/
def OpRanked (rank : Nat → Nat) : ExcOp → Prop
  | .inherit k j => rank k < rank j
  | _ => True

def PhaseRanked (rank : Nat → Nat) : ExcPhase → Prop
  | .inherit k j => rank k < rank j
  | .loop k j _ => rank k < rank j
  | .loopThrown k j _ => rank k < rank j
  | _ => True

structure Ranked (rank : Nat → Nat) (w : ExcThreads) : Prop where
  inv : ExcInv w
  todo : ∀ t, ∀ op ∈ w.todo t, OpRanked rank op
  phase : ∀ t, PhaseRanked rank (w.phase t)

theorem ranked_step {fold : Byte → Byte} (hf : FoldOK fold) {rank : Nat → Nat} {w : ExcThreads} (h : Ranked rank w) (t : Nat) :
    ∃ w', excThreadStep fold w t = .ok w' ∧ Ranked rank w' := by
  obtain ⟨w', e, i⟩ := excThread_step hf h.inv t
  have key : (∀ op ∈ w'.todo t, OpRanked rank op) ∧ PhaseRanked rank (w'.phase t) := by
    have hr := h.phase t
    have hd := h.todo t
    unfold excThreadStep at e
    cases hp : w.phase t with
    | rest =>
      simp only [hp] at e
      cases hq : w.todo t with
      | nil => simp only [hq] at e; cases e; exact ⟨hd, hr⟩
      | cons op ops =>
        simp only [hq] at e; cases e
        rw [hq] at hd
        have ho := hd op (List.mem_cons_self ..)
        refine ⟨?_, ?_⟩
        · simp only [putAt, if_true]; exact fun o ho => hd o (List.mem_cons_of_mem _ ho)
        · simp only [putAt, if_true]; cases op <;> first | exact trivial | exact ho
    | throw k x =>
      simp only [hp] at e
      cases hk : w.holder k with
      | some u => simp only [hk] at e; cases e; exact ⟨hd, hr⟩
      | none =>
        simp only [hk] at e
        cases hx : throwException fold (w.info k) x with
        | ok y => rw [hx, Res.ok_bind] at e; cases e; exact ⟨hd, by simp [putAt, PhaseRanked]⟩
        | ub => rw [hx] at e; cases e
        | fatal => rw [hx] at e; cases e
    | thrown k x => simp only [hp] at e; cases e; exact ⟨hd, by simp [putAt, PhaseRanked]⟩
    | clear k op =>
      simp only [hp] at e
      cases hk : w.holder k with
      | some u => simp only [hk] at e; cases e; exact ⟨hd, hr⟩
      | none => simp only [hk] at e; cases e; exact ⟨hd, by simp [putAt, PhaseRanked]⟩
    | cleared k op => simp only [hp] at e; cases e; exact ⟨hd, by simp [putAt, PhaseRanked]⟩
    | caught k =>
      simp only [hp] at e
      cases hk : w.holder k with
      | some u => simp only [hk] at e; cases e; exact ⟨hd, hr⟩
      | none => simp only [hk] at e; cases e; exact ⟨hd, by simp [putAt, PhaseRanked]⟩
    | delivered k => simp only [hp] at e; cases e; exact ⟨hd, by simp [putAt, PhaseRanked]⟩
    | inherit k j =>
      simp only [hp] at e
      rw [hp] at hr
      cases hk : w.holder j with
      | some u => simp only [hk] at e; cases e; exact ⟨hd, by rw [hp]; exact hr⟩
      | none => simp only [hk] at e; cases e; exact ⟨hd, by simp only [putAt, if_true]; exact hr⟩
    | loop k j ps =>
      rw [hp] at hr
      cases ps with
      | nil => simp only [hp] at e; cases e; exact ⟨hd, by simp [putAt, PhaseRanked]⟩
      | cons x ps =>
        simp only [hp] at e
        cases hk : w.holder k with
        | some u => simp only [hk] at e; cases e; exact ⟨hd, by rw [hp]; exact hr⟩
        | none =>
          simp only [hk] at e
          cases hx : throwException fold (w.info k) x with
          | ok y => rw [hx, Res.ok_bind] at e; cases e; exact ⟨hd, by simp only [putAt, if_true]; exact hr⟩
          | ub => rw [hx] at e; cases e
          | fatal => rw [hx] at e; cases e
    | loopThrown k j ps =>
      rw [hp] at hr
      simp only [hp] at e; cases e; exact ⟨hd, by simp only [putAt, if_true]; exact hr⟩
  refine ⟨w', e, i, ?_, ?_⟩
  · intro u
    by_cases hu : u = t
    · subst hu; exact key.1
    · rw [(excStep_others e hu).2]; exact h.todo u
  · intro u
    by_cases hu : u = t
    · subst hu; exact key.2
    · rw [(excStep_others e hu).1]; exact h.phase u

/-- `w'` is reached from `w`, while threads for which `P` holds do nothing. -/
def Gets (fold : Byte → Byte) (rank : Nat → Nat) (P : Nat → Prop) (w w' : ExcThreads) : Prop :=
  (∃ ys, excThreadRun fold w ys = .ok w') ∧ Ranked rank w' ∧ ∀ v, P v → w'.phase v = w.phase v ∧ w'.todo v = w.todo v

theorem Gets.refl {fold : Byte → Byte} {rank : Nat → Nat} {P : Nat → Prop} {w : ExcThreads} (h : Ranked rank w) : Gets fold rank P w w :=
  ⟨⟨[], rfl⟩, h, fun _ _ => ⟨rfl, rfl⟩⟩

theorem Gets.trans {fold : Byte → Byte} {rank : Nat → Nat} {P : Nat → Prop} {a b c : ExcThreads} (h1 : Gets fold rank P a b)
    (h2 : Gets fold rank P b c) : Gets fold rank P a c := by
  obtain ⟨⟨xs, e1⟩, r1, f1⟩ := h1
  obtain ⟨⟨ys, e2⟩, r2, f2⟩ := h2
  exact ⟨⟨xs ++ ys, by rw [excThreadRun_append, e1]; exact e2⟩, r2,
    fun v hv => ⟨by rw [(f2 v hv).1, (f1 v hv).1], by rw [(f2 v hv).2, (f1 v hv).2]⟩⟩

theorem Gets.mono {fold : Byte → Byte} {rank : Nat → Nat} {P Q : Nat → Prop} {a b : ExcThreads} (h1 : Gets fold rank P a b)
    (h : ∀ v, Q v → P v) : Gets fold rank Q a b := ⟨h1.1, h1.2.1, fun v hv => h1.2.2 v (h v hv)⟩

theorem Gets.step {fold : Byte → Byte} (hf : FoldOK fold) {rank : Nat → Nat} {P : Nat → Prop} {w : ExcThreads} (h : Ranked rank w) {t : Nat}
    (hP : ¬ P t) : ∃ w', excThreadStep fold w t = .ok w' ∧ Gets fold rank P w w' := by
  obtain ⟨w', e, i⟩ := ranked_step hf h t
  exact ⟨w', e, ⟨[t], by rw [excThreadRun, e]; rfl⟩, i, fun v hv => excStep_others e (fun e => hP (e ▸ hv))⟩

/-- A thread that is past a lock releases it. -/
theorem gets_release {fold : Byte → Byte} (hf : FoldOK fold) {rank : Nat → Nat} {P : Nat → Prop} {w : ExcThreads} (h : Ranked rank w) {t : Nat}
    (hP : ¬ P t) : (∀ k x, w.phase t = .thrown k x → ∃ w', Gets fold rank P w w' ∧ w'.phase t = .rest ∧ w'.todo t = w.todo t ∧ w'.holder k = none) ∧
    (∀ k x, w.phase t = .cleared k x → ∃ w', Gets fold rank P w w' ∧ w'.phase t = .rest ∧ w'.todo t = w.todo t ∧ w'.holder k = none) ∧
    (∀ k, w.phase t = .delivered k → ∃ w', Gets fold rank P w w' ∧ w'.phase t = .clear k (.caught k) ∧ w'.todo t = w.todo t ∧ w'.holder k = none) ∧
    (∀ k j, w.phase t = .loop k j [] → ∃ w', Gets fold rank P w w' ∧ w'.phase t = .rest ∧ w'.todo t = w.todo t ∧ w'.holder j = none) ∧
    (∀ k j ps, w.phase t = .loopThrown k j ps → ∃ w', Gets fold rank P w w' ∧ w'.phase t = .loop k j ps ∧ w'.todo t = w.todo t ∧ w'.holder k = none) := by
  obtain ⟨w', e, g⟩ := Gets.step hf h hP
  refine ⟨?_, ?_, ?_, ?_, ?_⟩
  all_goals
    intros
    rename_i hp
    unfold excThreadStep at e
    simp only [hp] at e
    cases e
    exact ⟨_, g, by simp [putAt], rfl, by simp [putAt]⟩

/-- A thread that finds a semaphore free takes it. -/
theorem gets_take {fold : Byte → Byte} (hf : FoldOK fold) {rank : Nat → Nat} {P : Nat → Prop} {w : ExcThreads} (h : Ranked rank w) {t : Nat}
    (hP : ¬ P t) : (∀ k x, w.phase t = .throw k x → w.holder k = none → ∃ w', Gets fold rank P w w' ∧ w'.phase t = .thrown k x ∧ w'.todo t = w.todo t) ∧
    (∀ k x, w.phase t = .clear k x → w.holder k = none → ∃ w', Gets fold rank P w w' ∧ w'.phase t = .cleared k x ∧ w'.todo t = w.todo t) ∧
    (∀ k, w.phase t = .caught k → w.holder k = none → ∃ w', Gets fold rank P w w' ∧ w'.phase t = .delivered k ∧ w'.todo t = w.todo t) ∧
    (∀ k j, w.phase t = .inherit k j → w.holder j = none → ∃ w', Gets fold rank P w w' ∧ w'.phase t = .loop k j (w.info j).log ∧ w'.todo t = w.todo t) ∧
    (∀ k j p ps, w.phase t = .loop k j (p :: ps) → w.holder k = none →
      ∃ w', Gets fold rank P w w' ∧ w'.phase t = .loopThrown k j ps ∧ w'.todo t = w.todo t) := by
  obtain ⟨w', e, g⟩ := Gets.step hf h hP
  refine ⟨?_, ?_, ?_, ?_, ?_⟩
  · intro k x hp hk
    unfold excThreadStep at e
    simp only [hp, hk] at e
    cases hx : throwException fold (w.info k) x with
    | ok y => rw [hx, Res.ok_bind] at e; cases e; exact ⟨_, g, by simp [putAt], rfl⟩
    | ub => rw [hx] at e; cases e
    | fatal => rw [hx] at e; cases e
  · intro k x hp hk
    unfold excThreadStep at e
    simp only [hp, hk] at e
    cases e; exact ⟨_, g, by simp [putAt], rfl⟩
  · intro k hp hk
    unfold excThreadStep at e
    simp only [hp, hk] at e
    cases e; exact ⟨_, g, by simp [putAt], rfl⟩
  · intro k j hp hk
    unfold excThreadStep at e
    simp only [hp, hk] at e
    cases e; exact ⟨_, g, by simp [putAt], rfl⟩
  · intro k j x ps hp hk
    unfold excThreadStep at e
    simp only [hp, hk] at e
    cases hx : throwException fold (w.info k) x with
    | ok y => rw [hx, Res.ok_bind] at e; cases e; exact ⟨_, g, by simp [putAt], rfl⟩
    | ub => rw [hx] at e; cases e
    | fatal => rw [hx] at e; cases e

/-- All semaphores the thread has are of higher rank. -/
def Above (rank : Nat → Nat) (n : Nat) (w : ExcThreads) (v : Nat) : Prop := ∀ m, Holds (w.phase v) m → n < rank m

/-- Semaphores of this rank can be freed by threads that have one of at most this rank. -/
def Frees (fold : Byte → Byte) (rank : Nat → Nat) (n : Nat) : Prop :=
  ∀ k w, rank k = n → Ranked rank w → ∃ w', Gets fold rank (Above rank n w) w w' ∧ w'.holder k = none

/-- The loop of `InheritException` ends. -/
theorem drain {fold : Byte → Byte} (hf : FoldOK fold) {rank : Nat → Nat} {j : Nat} (ih : ∀ m, m < rank j → Frees fold rank m) (k t : Nat) :
    ∀ (ps : List ExcElem) (w : ExcThreads), Ranked rank w → w.phase t = .loop k j ps →
      ∃ w', Gets fold rank (Above rank (rank j) w) w w' ∧ w'.phase t = .rest ∧ w'.todo t = w.todo t ∧ w'.holder j = none := by
  intro ps
  induction ps with
  | nil =>
    intro w h hp
    exact (gets_release hf h (fun hA => absurd (hA j (by rw [hp]; exact rfl)) (Nat.lt_irrefl _))).2.2.2.1 k j hp
  | cons p ps ih2 =>
    intro w h hp
    have hr := h.phase t
    rw [hp] at hr
    obtain ⟨w1, g1, n1⟩ := ih (rank k) hr k w rfl h
    have f1 := g1.2.2 t (by intro m hm; rw [hp] at hm; rw [hm]; exact hr)
    have nP : ∀ w0 : ExcThreads, Holds (w0.phase t) j → ¬ Above rank (rank j) w0 t := fun w0 hh hA => absurd (hA j hh) (Nat.lt_irrefl _)
    have nA : ¬ Above rank (rank j) w t := nP w (by rw [hp]; exact rfl)
    obtain ⟨w2, g2, p2, t2⟩ := (gets_take hf g1.2.1 nA).2.2.2.2 k j p ps (by rw [f1.1, hp]) n1
    obtain ⟨w3, g3, p3, t3, _⟩ := (gets_release hf g2.2.1 nA).2.2.2.2 k j ps p2
    obtain ⟨w4, g4, p4, t4, n4⟩ := ih2 w3 g3.2.1 p3
    have c1 : Gets fold rank (Above rank (rank j) w) w w1 := g1.mono (fun v hv m hm => Nat.lt_trans hr (hv m hm))
    have c3 := (c1.trans g2).trans g3
    have c4 : Gets fold rank (Above rank (rank j) w) w3 w4 := g4.mono (fun v hv m hm => by rw [(c3.2.2 v hv).1] at hm; exact hv m hm)
    exact ⟨w4, c3.trans c4, p4, by rw [t4, t3, t2, f1.2], n4⟩

/-- Every semaphore can be freed. -/
theorem frees {fold : Byte → Byte} (hf : FoldOK fold) (rank : Nat → Nat) : ∀ n, Frees fold rank n := by
  intro n
  induction n using Nat.strongRecOn with
  | _ n ih =>
    intro k w hk h
    subst hk
    cases hh : w.holder k with
    | none => exact ⟨w, Gets.refl h, hh⟩
    | some u =>
      have hu := (h.inv.locks k u).mp hh
      have nA : ¬ Above rank (rank k) w u := fun hA => absurd (hA k hu) (Nat.lt_irrefl _)
      cases hp : w.phase u with
      | thrown k' x =>
        rw [hp] at hu; cases hu
        obtain ⟨w', g, _, _, n⟩ := (gets_release hf h nA).1 k x hp
        exact ⟨w', g, n⟩
      | cleared k' x =>
        rw [hp] at hu; cases hu
        obtain ⟨w', g, _, _, n⟩ := (gets_release hf h nA).2.1 k x hp
        exact ⟨w', g, n⟩
      | delivered k' =>
        rw [hp] at hu; cases hu
        obtain ⟨w', g, _, _, n⟩ := (gets_release hf h nA).2.2.1 k hp
        exact ⟨w', g, n⟩
      | loop k' j ps =>
        rw [hp] at hu; cases hu
        obtain ⟨w', g, _, _, n⟩ := drain hf ih k' u ps w h hp
        exact ⟨w', g, n⟩
      | loopThrown k' j ps =>
        obtain ⟨w1, g1, p1, _, n1⟩ := (gets_release hf h nA).2.2.2.2 k' j ps hp
        rw [hp] at hu
        rcases hu with hu | hu
        · cases hu; exact ⟨w1, g1, n1⟩
        · cases hu
          obtain ⟨w2, g2, _, _, n2⟩ := drain hf ih k' u ps w1 g1.2.1 p1
          exact ⟨w2, g1.trans (g2.mono (fun v hv m hm => by rw [(g1.2.2 v hv).1] at hm; exact hv m hm)), n2⟩
      | _ => rw [hp] at hu; exact absurd hu (by simp [Holds])

/-- Every call ends. -/
theorem call_ends {fold : Byte → Byte} (hf : FoldOK fold) {rank : Nat → Nat} {w : ExcThreads} (h : Ranked rank w) (t : Nat) :
    ∃ w', Gets fold rank (fun _ => False) w w' ∧ w'.phase t = .rest ∧ w'.todo t = w.todo t := by
  have weak : ∀ {P : Nat → Prop} {a b : ExcThreads}, Gets fold rank P a b → Gets fold rank (fun _ => False) a b := fun g => g.mono (fun _ h => h.elim)
  have key : ∀ (w : ExcThreads), Ranked rank w → ∀ k, (∀ m, ¬ Holds (w.phase t) m) →
      ∃ w', Gets fold rank (fun _ => False) w w' ∧ w'.holder k = none ∧ w'.phase t = w.phase t ∧ w'.todo t = w.todo t := by
    intro w h k hn
    obtain ⟨w1, g1, n1⟩ := frees hf rank _ k w rfl h
    have f1 := g1.2.2 t (fun m hm => absurd hm (hn m))
    exact ⟨w1, weak g1, n1, f1.1, f1.2⟩
  have lp : ∀ (w : ExcThreads), Ranked rank w → ∀ k j ps, w.phase t = .loop k j ps →
      ∃ w', Gets fold rank (fun _ => False) w w' ∧ w'.phase t = .rest ∧ w'.todo t = w.todo t := by
    intro w h k j ps hp
    obtain ⟨w1, g1, p1, t1, _⟩ := drain hf (fun m _ => frees hf rank m) k t ps w h hp
    exact ⟨w1, weak g1, p1, t1⟩
  have cl : ∀ (w : ExcThreads), Ranked rank w → ∀ k x, w.phase t = .clear k x →
      ∃ w', Gets fold rank (fun _ => False) w w' ∧ w'.phase t = .rest ∧ w'.todo t = w.todo t := by
    intro w h k x hp
    obtain ⟨w1, g1, n1, p1, t1⟩ := key w h k (by intro m hm; rw [hp] at hm; exact hm)
    obtain ⟨w2, g2, p2, t2⟩ := (gets_take hf g1.2.1 (P := fun _ => False) id).2.1 k x (by rw [p1, hp]) n1
    obtain ⟨w3, g3, p3, t3, _⟩ := (gets_release hf g2.2.1 (P := fun _ => False) id).2.1 k x p2
    exact ⟨w3, (g1.trans g2).trans g3, p3, by rw [t3, t2, t1]⟩
  have dl : ∀ (w : ExcThreads), Ranked rank w → ∀ k, w.phase t = .delivered k →
      ∃ w', Gets fold rank (fun _ => False) w w' ∧ w'.phase t = .rest ∧ w'.todo t = w.todo t := by
    intro w h k hp
    obtain ⟨w1, g1, p1, t1, _⟩ := (gets_release hf h (P := fun _ => False) id).2.2.1 k hp
    obtain ⟨w2, g2, p2, t2⟩ := cl w1 g1.2.1 k _ p1
    exact ⟨w2, g1.trans g2, p2, by rw [t2, t1]⟩
  cases hp : w.phase t with
  | rest => exact ⟨w, Gets.refl h, hp, rfl⟩
  | throw k x =>
    obtain ⟨w1, g1, n1, p1, t1⟩ := key w h k (by intro m hm; rw [hp] at hm; exact hm)
    obtain ⟨w2, g2, p2, t2⟩ := (gets_take hf g1.2.1 (P := fun _ => False) id).1 k x (by rw [p1, hp]) n1
    obtain ⟨w3, g3, p3, t3, _⟩ := (gets_release hf g2.2.1 (P := fun _ => False) id).1 k x p2
    exact ⟨w3, (g1.trans g2).trans g3, p3, by rw [t3, t2, t1]⟩
  | thrown k x =>
    obtain ⟨w3, g3, p3, t3, _⟩ := (gets_release hf h (P := fun _ => False) id).1 k x hp
    exact ⟨w3, g3, p3, t3⟩
  | clear k x => exact cl w h k x hp
  | cleared k x =>
    obtain ⟨w3, g3, p3, t3, _⟩ := (gets_release hf h (P := fun _ => False) id).2.1 k x hp
    exact ⟨w3, g3, p3, t3⟩
  | caught k =>
    obtain ⟨w1, g1, n1, p1, t1⟩ := key w h k (by intro m hm; rw [hp] at hm; exact hm)
    obtain ⟨w2, g2, p2, t2⟩ := (gets_take hf g1.2.1 (P := fun _ => False) id).2.2.1 k (by rw [p1, hp]) n1
    obtain ⟨w3, g3, p3, t3⟩ := dl w2 g2.2.1 k p2
    exact ⟨w3, (g1.trans g2).trans g3, p3, by rw [t3, t2, t1]⟩
  | delivered k => exact dl w h k hp
  | inherit k j =>
    obtain ⟨w1, g1, n1, p1, t1⟩ := key w h j (by intro m hm; rw [hp] at hm; exact hm)
    obtain ⟨w2, g2, p2, t2⟩ := (gets_take hf g1.2.1 (P := fun _ => False) id).2.2.2.1 k j (by rw [p1, hp]) n1
    obtain ⟨w3, g3, p3, t3⟩ := lp w2 g2.2.1 k j _ p2
    exact ⟨w3, (g1.trans g2).trans g3, p3, by rw [t3, t2, t1]⟩
  | loop k j ps => exact lp w h k j ps hp
  | loopThrown k j ps =>
    obtain ⟨w1, g1, p1, t1, _⟩ := (gets_release hf h (P := fun _ => False) id).2.2.2.2 k j ps hp
    obtain ⟨w2, g2, p2, t2⟩ := lp w1 g1.2.1 k j ps p1
    exact ⟨w2, g1.trans g2, p2, by rw [t2, t1]⟩

/-- All calls of a thread end. -/
theorem calls_end {fold : Byte → Byte} (hf : FoldOK fold) {rank : Nat → Nat} (t : Nat) : ∀ (ops : List ExcOp) (w : ExcThreads), Ranked rank w →
    w.todo t = ops → ∃ w', Gets fold rank (fun _ => False) w w' ∧ w'.phase t = .rest ∧ w'.todo t = [] := by
  intro ops
  induction ops with
  | nil =>
    intro w h hd
    obtain ⟨w1, g1, p1, t1⟩ := call_ends hf h t
    exact ⟨w1, g1, p1, by rw [t1, hd]⟩
  | cons op ops ih =>
    intro w h hd
    obtain ⟨w1, g1, p1, t1⟩ := call_ends hf h t
    obtain ⟨w2, e2, g2⟩ := Gets.step hf g1.2.1 (t := t) (P := fun _ => False) id
    have : w2.todo t = ops := by
      unfold excThreadStep at e2
      simp only [p1, t1, hd] at e2
      cases e2; simp [putAt]
    obtain ⟨w3, g3, p3, t3⟩ := ih w2 g2.2.1 this
    exact ⟨w3, (g1.trans g2).trans g3, p3, t3⟩

end Wizard.Props

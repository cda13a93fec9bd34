import Verif.Model.Lazy
/-! C122: threads that use a component for the first time. -/
namespace Wizard.Props
open Wizard

/-- The thread has the mutex. -/
def HasMutex (p : LazyPc) : Prop := p = .semNullAgain ∨ p = .semAcquire ∨ p = .mutexUnlock

/-- The thread has the semaphore. -/
def HasSem (p : LazyPc) : Prop := p = .cacheNullAgain ∨ p = .cacheLoad ∨ p = .cacheStore ∨ p = .semUnlock

/-- What every schedule keeps up. -/
structure LazyInv (openmp : Bool) (w : LazyWorld) : Prop where
  mutex1 : ∀ t, w.mutex = some t → HasMutex (w.pc t)
  mutex2 : ∀ t, HasMutex (w.pc t) → w.mutex = some t
  sem0 : w.sem = none → w.made = 0
  sem1 : w.sem ≠ none → w.sem = some 0 ∧ w.made = 1
  known : ∀ t, (w.pc t = .mutexUnlock ∨ w.pc t = .semLock ∨ HasSem (w.pc t)) → w.sem = some 0
  making : ∀ t, w.pc t = .semAcquire → w.sem = none
  held1 : ∀ t, w.held 0 = some t → HasSem (w.pc t)
  held2 : ∀ t, HasSem (w.pc t) → w.held 0 = some t
  cache0 : w.cache = none → w.held 0 = none → w.loads = 0
  cache0' : ∀ t, w.cache = none → w.held 0 = some t → w.pc t ≠ .cacheStore → w.loads = 0
  cache1 : w.cache ≠ none → w.cache = some 0 ∧ w.loads = 1
  loading : ∀ t, w.pc t = .cacheLoad → w.cache = none
  storing : ∀ t, w.pc t = .cacheStore → w.cache = none ∧ w.loads = 1
  loaded : ∀ t, (w.pc t = .semUnlock ∨ w.pc t = .done) → w.cache = some 0
  ready : openmp = true → w.active = true
  init : ∀ t, w.pc t ≠ .mutexInit

theorem lazy_step {openmp : Bool} {w : LazyWorld} (h : LazyInv openmp w) (t : Nat) : ∃ w', lazyStep openmp w t = .ok w' ∧ LazyInv openmp w' := by
  obtain ⟨h1, h2, h3, h4, h5, h6, h7, h8, h9, h9', h10, h11, h12, h13, h14, h15⟩ := h
  unfold lazyStep
  simp only [HasMutex, HasSem] at h1 h2 h5 h7 h8
  cases hp : w.pc t <;> simp only [hp, LazyWorld.goto]
  case mutexInit => exact absurd hp (h15 t)
  case mutexLock =>
    cases hm : w.mutex with
    | some u => exact ⟨_, rfl, ⟨h1, h2, h3, h4, h5, h6, h7, h8, h9, h9', h10, h11, h12, h13, h14, h15⟩⟩
    | none =>
      refine ⟨_, rfl, ?_⟩
      constructor <;> simp only [putAt, HasMutex, HasSem] <;> grind
  case semLock =>
    have hs := h5 t (by simp [hp])
    simp only [hs]
    cases hm : w.held 0 with
    | some u => exact ⟨_, rfl, ⟨h1, h2, h3, h4, h5, h6, h7, h8, h9, h9', h10, h11, h12, h13, h14, h15⟩⟩
    | none =>
      refine ⟨_, rfl, ?_⟩
      constructor <;> simp only [putAt, HasMutex, HasSem] <;> grind
  case semUnlock =>
    have hs := h5 t (by simp [hp])
    simp only [hs]
    refine ⟨_, rfl, ?_⟩
    constructor <;> simp only [putAt, HasMutex, HasSem] <;> grind
  case done => exact ⟨_, rfl, ⟨h1, h2, h3, h4, h5, h6, h7, h8, h9, h9', h10, h11, h12, h13, h14, h15⟩⟩
  all_goals
    refine ⟨_, rfl, ?_⟩
    constructor <;> simp only [putAt, HasMutex, HasSem] <;> grind

theorem lazy_run {openmp : Bool} : ∀ (xs : List Nat) {w : LazyWorld}, LazyInv openmp w → ∃ w', lazyRun openmp w xs = .ok w' ∧ LazyInv openmp w'
  | [], w, h => ⟨w, rfl, h⟩
  | t :: ts, w, h => by
    obtain ⟨w1, e1, h1⟩ := lazy_step h t
    obtain ⟨w2, e2, h2⟩ := lazy_run ts h1
    exact ⟨w2, by simp [lazyRun, e1, e2], h2⟩

theorem lazy_start {openmp active : Bool} (h : openmp = true → active = true) : LazyInv openmp (LazyWorld.start active) := by
  constructor <;> simp [LazyWorld.start, HasMutex, HasSem] <;> exact h

theorem lazyRun_append {openmp : Bool} : ∀ (xs ys : List Nat) (w : LazyWorld),
    lazyRun openmp w (xs ++ ys) = (lazyRun openmp w xs).bind (fun w' => lazyRun openmp w' ys)
  | [], ys, w => rfl
  | t :: ts, ys, w => by
    simp only [List.cons_append, lazyRun]
    cases h : lazyStep openmp w t with
    | ok w1 => exact lazyRun_append ts ys w1
    | ub => rfl
    | fatal => rfl

/-- How many steps of its own a thread has before it at most. -/
def lazyRank : LazyPc → Nat
  | .cacheNull => 15 | .semNull => 14 | .activateNull => 13 | .mutexActive => 12 | .mutexInit => 11 | .setActive => 10
  | .mutexLock => 9 | .semNullAgain => 8 | .semAcquire => 7 | .mutexUnlock => 6 | .semLock => 5 | .cacheNullAgain => 4
  | .cacheLoad => 3 | .cacheStore => 2 | .semUnlock => 1 | .done => 0

/-- A thread that need not wait gets on, and the others stay where they are. -/
theorem lazy_moves {openmp : Bool} {w : LazyWorld} (h : LazyInv openmp w) {t : Nat} (hd : w.pc t ≠ .done)
    (h1 : w.pc t = .mutexLock → w.mutex = none) (h2 : w.pc t = .semLock → w.held 0 = none) :
    ∃ w', lazyStep openmp w t = .ok w' ∧ LazyInv openmp w' ∧ lazyRank (w'.pc t) < lazyRank (w.pc t) ∧
      (∀ u, u ≠ t → w'.pc u = w.pc u) := by
  obtain ⟨w', e, i⟩ := lazy_step h t
  refine ⟨w', e, i, ?_, ?_⟩
  · unfold lazyStep at e
    cases hp : w.pc t <;> simp only [hp, LazyWorld.goto] at e
    case done => exact absurd hp hd
    case mutexInit => exact absurd hp (h.init t)
    case mutexLock => rw [h1 hp] at e; cases e; simp [putAt, lazyRank]
    case semLock =>
      rw [h.known t (by simp [hp])] at e; simp only [h2 hp] at e; cases e; simp [putAt, lazyRank]
    case semUnlock =>
      rw [h.known t (by simp [hp, HasSem])] at e; cases e; simp [putAt, lazyRank]
    all_goals
      cases e
      simp only [putAt, if_true]
      (repeat' split) <;> decide
  · intro u hu
    unfold lazyStep at e
    cases hp : w.pc t <;> simp only [hp, LazyWorld.goto] at e
    case mutexLock => rw [h1 hp] at e; cases e; simp [putAt, hu]
    case semLock =>
      rw [h.known t (by simp [hp])] at e; simp only [h2 hp] at e; cases e; simp [putAt, hu]
    case semUnlock =>
      rw [h.known t (by simp [hp, HasSem])] at e; cases e; simp [putAt, hu]
    all_goals
      cases e
      simp [putAt, hu]

/-- Whoever has the semaphore gives it back without waiting for anyone. -/
theorem lazy_sem {openmp : Bool} : ∀ (n : Nat) {w : LazyWorld} (u : Nat), LazyInv openmp w → HasSem (w.pc u) → lazyRank (w.pc u) = n →
    ∃ ys w', lazyRun openmp w ys = .ok w' ∧ LazyInv openmp w' ∧ w'.held 0 = none ∧ (∀ v, v ≠ u → w'.pc v = w.pc v) := by
  intro n
  induction n using Nat.strongRecOn with
  | _ n ih =>
    intro w u h hu hn
    obtain ⟨w1, e1, i1, r1, o1⟩ := lazy_moves h (t := u) (by rcases hu with e | e | e | e <;> simp [e])
      (by rcases hu with e | e | e | e <;> simp [e]) (by rcases hu with e | e | e | e <;> simp [e])
    by_cases hs : HasSem (w1.pc u)
    · obtain ⟨ys, w2, e2, i2, n2, o2⟩ := ih _ (by omega) u i1 hs rfl
      exact ⟨u :: ys, w2, by simp [lazyRun, e1, e2], i2, n2, fun v hv => by rw [o2 v hv, o1 v hv]⟩
    · refine ⟨[u], w1, by simp [lazyRun, e1], i1, ?_, o1⟩
      cases hh : w1.held 0 with
      | none => rfl
      | some v =>
        have hv := i1.held1 v hh
        by_cases e : v = u
        · subst e; exact absurd hv hs
        · rw [o1 v e] at hv
          have a := h.held2 v hv
          have b := h.held2 u hu
          rw [a] at b; cases b; exact absurd rfl e

/-- Whoever has the mutex gives it back without waiting for anyone. -/
theorem lazy_mutex {openmp : Bool} : ∀ (n : Nat) {w : LazyWorld} (u : Nat), LazyInv openmp w → HasMutex (w.pc u) → lazyRank (w.pc u) = n →
    ∃ ys w', lazyRun openmp w ys = .ok w' ∧ LazyInv openmp w' ∧ w'.mutex = none ∧ (∀ v, v ≠ u → w'.pc v = w.pc v) := by
  intro n
  induction n using Nat.strongRecOn with
  | _ n ih =>
    intro w u h hu hn
    obtain ⟨w1, e1, i1, r1, o1⟩ := lazy_moves h (t := u) (by rcases hu with e | e | e <;> simp [e])
      (by rcases hu with e | e | e <;> simp [e]) (by rcases hu with e | e | e <;> simp [e])
    by_cases hs : HasMutex (w1.pc u)
    · obtain ⟨ys, w2, e2, i2, n2, o2⟩ := ih _ (by omega) u i1 hs rfl
      exact ⟨u :: ys, w2, by simp [lazyRun, e1, e2], i2, n2, fun v hv => by rw [o2 v hv, o1 v hv]⟩
    · refine ⟨[u], w1, by simp [lazyRun, e1], i1, ?_, o1⟩
      cases hh : w1.mutex with
      | none => rfl
      | some v =>
        have hv := i1.mutex1 v hh
        by_cases e : v = u
        · subst e; exact absurd hv hs
        · rw [o1 v e] at hv
          have a := h.mutex2 v hv
          have b := h.mutex2 u hu
          rw [a] at b; cases b; exact absurd rfl e

/-- Every call can be brought to its end. -/
theorem lazy_ends {openmp : Bool} : ∀ (n : Nat) {w : LazyWorld} (t : Nat), LazyInv openmp w → lazyRank (w.pc t) = n →
    ∃ ys w', lazyRun openmp w ys = .ok w' ∧ w'.pc t = .done := by
  intro n
  induction n using Nat.strongRecOn with
  | _ n ih =>
    intro w t h hn
    by_cases hd : w.pc t = .done
    · exact ⟨[], w, rfl, hd⟩
    · have key : ∃ ys w', lazyRun openmp w ys = .ok w' ∧ LazyInv openmp w' ∧ w'.pc t = w.pc t ∧
          (w'.pc t = .mutexLock → w'.mutex = none) ∧ (w'.pc t = .semLock → w'.held 0 = none) := by
        by_cases hm : w.pc t = .mutexLock
        · cases hx : w.mutex with
          | none => exact ⟨[], w, rfl, h, rfl, fun _ => hx, fun e => by rw [hm] at e; cases e⟩
          | some u =>
            have hu := h.mutex1 u hx
            have ne : t ≠ u := by intro e; subst e; rw [hm] at hu; simp [HasMutex] at hu
            obtain ⟨ys, w', e, i, m, o⟩ := lazy_mutex _ u h hu rfl
            exact ⟨ys, w', e, i, o t ne, fun _ => m, fun e => by rw [o t ne, hm] at e; cases e⟩
        · by_cases hm' : w.pc t = .semLock
          · cases hx : w.held 0 with
            | none => exact ⟨[], w, rfl, h, rfl, (fun e => by rw [hm'] at e; cases e), fun _ => hx⟩
            | some u =>
              have hu := h.held1 u hx
              have ne : t ≠ u := by intro e; subst e; rw [hm'] at hu; simp [HasSem] at hu
              obtain ⟨ys, w', e, i, m, o⟩ := lazy_sem _ u h hu rfl
              exact ⟨ys, w', e, i, o t ne, (fun e => by rw [o t ne, hm'] at e; cases e), fun _ => m⟩
          · exact ⟨[], w, rfl, h, rfl, fun e => absurd e hm, fun e => absurd e hm'⟩
      obtain ⟨ys, w', e, i, p, k1, k2⟩ := key
      obtain ⟨w1, e1, i1, r1, _⟩ := lazy_moves i (t := t) (by rw [p]; exact hd) k1 k2
      obtain ⟨zs, w2, e2, d2⟩ := ih _ (by rw [← hn, ← p]; exact r1) t i1 rfl
      exact ⟨ys ++ t :: zs, w2, by rw [lazyRun_append, e]; simp [Res.bind, lazyRun, e1, e2], d2⟩

/-- The thread is between taking and releasing the component's semaphore. -/
def Inside (w : LazyWorld) (t : Nat) : Prop := w.pc t ∈ [.cacheNullAgain, .cacheLoad, .cacheStore, .semUnlock]

instance (w : LazyWorld) (t : Nat) : Decidable (Inside w t) := by unfold Inside; infer_instance

/-- **C122** Threads, however many, call a component for the first time, under any schedule.  With mutexes of pthreads, or with locks of
OpenMP after the library was started, no thread goes wrong; one semaphore is made and one cache is loaded at most; one thread at a time
is between taking the semaphore and releasing it; and whoever returns finds that one cache. -/
theorem C122_once_partial (openmp active : Bool) (started : openmp = true → active = true) (xs : List Nat) :
    ∃ w, lazyRun openmp (LazyWorld.start active) xs = .ok w ∧ w.made ≤ 1 ∧ w.loads ≤ 1 ∧
      (∀ t, w.pc t = .done → w.cache = some 0) ∧ (∀ t u, Inside w t → Inside w u → t = u) := by
  obtain ⟨w, e, h⟩ := lazy_run xs (lazy_start started)
  refine ⟨w, e, ?_, ?_, fun t ht => h.loaded t (.inr ht), ?_⟩
  · by_cases hs : w.sem = none
    · rw [h.sem0 hs]; omega
    · rw [(h.sem1 hs).2]; omega
  · by_cases hs : w.cache = none
    · cases hh : w.held 0 with
      | none => rw [h.cache0 hs hh]; omega
      | some t =>
        by_cases hp : w.pc t = .cacheStore
        · rw [(h.storing t hp).2]; omega
        · rw [h.cache0' t hs hh hp]; omega
    · rw [(h.cache1 hs).2]; omega
  · intro t u ht hu
    have a := h.held2 t (by simpa [Inside, HasSem] using ht)
    have b := h.held2 u (by simpa [Inside, HasSem] using hu)
    rw [a] at b; cases b; rfl

/-- **C122** And no thread waits forever: whatever happened so far, every call can still be brought to its end, in a state where the cache
is there. -/
theorem C122_returns_partial (openmp active : Bool) (started : openmp = true → active = true) (xs : List Nat) (t : Nat) :
    ∃ ys w, lazyRun openmp (LazyWorld.start active) (xs ++ ys) = .ok w ∧ w.pc t = .done ∧ w.cache = some 0 := by
  obtain ⟨w, e, h⟩ := lazy_run xs (lazy_start started)
  obtain ⟨ys, w', e', d⟩ := lazy_ends _ t h rfl
  obtain ⟨w'', e'', h'⟩ := lazy_run ys h
  rw [e'] at e''; cases e''
  exact ⟨ys, w', by rw [lazyRun_append, e]; exact e', d, h'.loaded t (.inr d)⟩

/-- Three threads that take turns: all return, one semaphore, one cache. -/
example : ∃ w, lazyRun false (LazyWorld.start false) ((List.range 20).flatMap fun _ => [0, 1, 2]) = .ok w ∧
    w.pc 0 = .done ∧ w.pc 1 = .done ∧ w.pc 2 = .done ∧ w.made = 1 ∧ w.loads = 1 := by
  refine ⟨_, rfl, ?_⟩
  decide +kernel

/-- **C122 is false** for the OpenMP build when threads call the library before it was started: `active_mutex` is tested and set without
any lock, so that two threads may both initialise the mutex, the second while the first has it.  Both then make a semaphore, each takes
the lock of its own, and both load the cache: the first cache and the first semaphore are lost, and the two threads were inside together. -/
theorem C122_openmp_violated : ∃ xs w, lazyRun true (LazyWorld.start false) xs = .ok w ∧ w.made = 2 ∧ w.loads = 2 ∧
    Inside w 0 ∧ Inside w 1 := by
  refine ⟨[0, 0, 0, 0, 1, 1, 1, 1, 0, 0, 0, 0, 1, 1, 1, 1, 0, 0, 0, 0, 0, 1, 1, 1, 1, 1], _, rfl, ?_⟩
  decide +kernel

end Wizard.Props

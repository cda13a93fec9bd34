import Verif.Spec.Lock
/-! C42, C79: the lock file. -/
namespace Wizard.Props
open Wizard Wizard.Spec.Lock

/-- What careful interleavings keep up. -/
structure LockInv (s : LockState) : Prop where
  /-- who has the file, or the lock, owns the lock file -/
  own : ∀ a, (0 < s.held a ∨ s.pc a = .locked ∨ s.pc a = .closing) → ∃ ino, s.lock = some ino ∧ s.owner ino = some a
  once : ∀ a, s.held a ≤ 1
  free : ∀ a, 0 < s.held a → s.pc a = .idle
  created : ∀ a i ino, s.pc a = .created i ino → s.lock = some ino ∧ s.owner ino = none
  one : ∀ a b i j m n, s.pc a = .created i m → s.pc b = .created j n → a = b
  reading : ∀ a i ino, s.pc a = .reading i ino → s.owner ino = some a → s.lock = some ino
  readLt : ∀ a i ino, s.pc a = .reading i ino → ino < s.next
  lockLt : ∀ ino, s.lock = some ino → ino < s.next
  noFail : ∀ a, s.pc a ≠ .failing ∧ s.pc a ≠ .takeover

theorem lockInv_start : LockInv .start where
  own := by intro a h; simp [LockState.start] at h
  once := by intro a; simp [LockState.start]
  free := by intro a h; simp [LockState.start] at h
  created := by intro a i ino h; simp [LockState.start] at h
  one := by intro a b i j m n h; simp [LockState.start] at h
  reading := by intro a i ino h; simp [LockState.start] at h
  readLt := by intro a i ino h; simp [LockState.start] at h
  lockLt := by intro ino h; simp [LockState.start] at h
  noFail := by intro a; simp [LockState.start]

@[simp] theorem go_self (s : LockState) (a : Agent) (p : LockPC) : (s.go a p).pc a = p := by simp [LockState.go]
theorem go_other (s : LockState) {a b : Agent} (p : LockPC) (h : b ≠ a) : (s.go a p).pc b = s.pc b := by simp [LockState.go, h]
@[simp] theorem go_lock (s : LockState) (a : Agent) (p : LockPC) : (s.go a p).lock = s.lock := rfl
@[simp] theorem go_owner (s : LockState) (a : Agent) (p : LockPC) : (s.go a p).owner = s.owner := rfl
@[simp] theorem go_next (s : LockState) (a : Agent) (p : LockPC) : (s.go a p).next = s.next := rfl
@[simp] theorem go_held (s : LockState) (a : Agent) (p : LockPC) : (s.go a p).held = s.held := rfl
@[simp] theorem go_alive (s : LockState) (a : Agent) (p : LockPC) : (s.go a p).alive = s.alive := rfl

/-- A step that only moves a thread that does not hold the file. -/
theorem lockInv_go {s : LockState} {a : Agent} {p : LockPC} (h : LockInv s) (hh : 0 < s.held a → p = .idle)
    (h1 : p = .locked ∨ p = .closing → ∃ ino, s.lock = some ino ∧ s.owner ino = some a)
    (h2 : ∀ i ino, p ≠ .created i ino) (h3 : ∀ i ino, p = .reading i ino → s.lock = some ino)
    (h4 : p ≠ .failing ∧ p ≠ .takeover) : LockInv (s.go a p) where
  own := by
    intro b hb
    by_cases e : b = a
    · subst e
      simp only [go_held, go_self, go_lock, go_owner] at hb ⊢
      rcases hb with hb | hb | hb
      · exact h.own b (.inl hb)
      · exact h1 (.inl hb)
      · exact h1 (.inr hb)
    · rw [go_held, go_other s p e] at hb
      exact h.own b hb
  once := h.once
  free := by
    intro b hb
    by_cases e : b = a
    · subst e; rw [go_self]; exact hh hb
    · rw [go_other s p e]; exact h.free b hb
  created := by
    intro b i ino hb
    by_cases e : b = a
    · subst e; rw [go_self] at hb; exact absurd hb (h2 i ino)
    · rw [go_other s p e] at hb; exact h.created b i ino hb
  one := by
    intro b c i j m n hb hc
    by_cases e : b = a
    · subst e; rw [go_self] at hb; exact absurd hb (h2 i m)
    · by_cases e' : c = a
      · subst e'; rw [go_self] at hc; exact absurd hc (h2 j n)
      · rw [go_other s p e] at hb; rw [go_other s p e'] at hc; exact h.one b c i j m n hb hc
  reading := by
    intro b i ino hb ho
    by_cases e : b = a
    · subst e; rw [go_self] at hb; exact h3 i ino hb
    · rw [go_other s p e] at hb; exact h.reading b i ino hb ho
  readLt := by
    intro b i ino hb
    by_cases e : b = a
    · subst e; rw [go_self] at hb; exact h.lockLt ino (h3 i ino hb)
    · rw [go_other s p e] at hb; exact h.readLt b i ino hb
  lockLt := h.lockLt
  noFail := by
    intro b
    by_cases e : b = a
    · subst e; rw [go_self]; exact h4
    · rw [go_other s p e]; exact h.noFail b

/-- The owner of the lock file removes it. -/
theorem lockInv_remove {s : LockState} {a : Agent} {k : Nat} (h : LockInv s) (ho : ∃ ino, s.lock = some ino ∧ s.owner ino = some a)
    (hp : s.pc a ≠ .locked) (hk : s.held a - 1 = k) (hr : ∀ i ino, s.pc a ≠ .reading i ino) :
    LockInv ({ s with lock := none, held := fun x => if x = a then k else s.held x }.go a .idle) := by
  obtain ⟨ino, hl, hw⟩ := ho
  have hk0 : k = 0 := by have := h.once a; omega
  have none_else : ∀ b, b ≠ a → ¬ (0 < s.held b ∨ s.pc b = .locked ∨ s.pc b = .closing) := by
    intro b hb hx
    obtain ⟨ino', h1, h2⟩ := h.own b hx
    rw [hl] at h1
    injection h1 with h1
    rw [← h1, hw] at h2
    injection h2 with h2
    exact hb h2.symm
  refine ⟨?_, ?_, ?_, ?_, ?_, ?_, ?_, ?_, ?_⟩
  · intro b hb
    exfalso
    by_cases e : b = a
    · subst e
      rw [go_self] at hb
      simp [hk0] at hb
    · rw [go_other _ _ e] at hb
      simp only [go_held, if_neg e] at hb
      exact none_else b e hb
  · intro b
    simp only [go_held]
    split
    · omega
    · exact h.once b
  · intro b hb
    by_cases e : b = a
    · subst e; rw [go_self]
    · rw [go_other _ _ e]
      simp only [go_held, if_neg e] at hb
      exact h.free b hb
  · intro b i m hb
    by_cases e : b = a
    · subst e; rw [go_self] at hb; cases hb
    · rw [go_other _ _ e] at hb
      have := h.created b i m hb
      rw [hl] at this
      obtain ⟨h1, h2⟩ := this
      injection h1 with h1
      rw [← h1, hw] at h2; cases h2
  · intro b c i j m n hb hc
    by_cases e : b = a
    · subst e; rw [go_self] at hb; cases hb
    · by_cases e' : c = a
      · subst e'; rw [go_self] at hc; cases hc
      · rw [go_other _ _ e] at hb; rw [go_other _ _ e'] at hc
        exact h.one b c i j m n hb hc
  · intro b i m hb hm
    by_cases e : b = a
    · subst e; rw [go_self] at hb; cases hb
    · rw [go_other _ _ e] at hb
      have := h.reading b i m hb hm
      rw [hl] at this
      injection this with this
      simp only [go_owner] at hm
      rw [← this, hw] at hm
      injection hm with hm
      exact absurd hm.symm e
  · intro b i m hb
    by_cases e : b = a
    · subst e; rw [go_self] at hb; cases hb
    · rw [go_other _ _ e] at hb; exact h.readLt b i m hb
  · intro m hm; cases hm
  · intro b
    by_cases e : b = a
    · subst e; rw [go_self]; simp
    · rw [go_other _ _ e]; exact h.noFail b

theorem lockInv_step {s s' : LockState} {a : Agent} {act : LockAct} (h : LockInv s) (hs : lockStep s a act = some s')
    (h1 : act = .begin → s.held a = 0) (h2 : s'.pc a ≠ .failing) (h3 : s'.pc a ≠ .takeover) : LockInv s' := by
  have held0 : s.pc a ≠ .idle → s.held a = 0 := by
    intro hn
    rcases Nat.eq_zero_or_pos (s.held a) with h0 | h0
    · exact h0
    · exact absurd (h.free a h0) hn
  unfold lockStep at hs
  split at hs
  rotate_left
  · cases hs
  cases act with
  | begin =>
    simp only at hs
    split at hs
    · injection hs with hs
      subst hs
      exact lockInv_go h (by rw [h1 rfl]; intro hx; omega) (by simp) (by simp) (by simp) (by simp)
    · cases hs
  | release =>
    simp only at hs
    split at hs
    · rename_i hc
      injection hs with hs
      subst hs
      have := lockInv_remove h (h.own a (.inl hc.2)) (by rw [hc.1]; simp) rfl (by rw [hc.1]; simp)
      refine cast (congrArg LockInv ?_) this
      unfold LockState.go
      congr 1
      funext x
      split
      · rename_i e; rw [e, hc.1]
      · rfl
    · cases hs
  | die =>
    injection hs with hs
    subst hs
    exact ⟨h.own, h.once, h.free, h.created, h.one, h.reading, h.readLt, h.lockLt, h.noFail⟩
  | denied =>
    simp only [lockDenied] at hs
    split at hs
    · split at hs
      · injection hs with hs; subst hs; exact absurd (go_self ..) h2
      · cases hs
    · injection hs with hs; subst hs; exact absurd (go_self ..) h2
    · rename_i hp
      injection hs with hs; subst hs
      exact lockInv_go h (by rw [held0 (by rw [hp]; simp)]; intro hx; omega) (fun _ => h.own a (.inr (.inl hp))) (by simp) (by simp) (by simp)
    · cases hs
  | next =>
    simp only [lockNext] at hs
    split at hs
    · cases hs
    · -- trying
      rename_i i hp
      have h0 := held0 (by rw [hp]; simp)
      split at hs
      · split at hs
        · rename_i hl
          injection hs with hs
          subst hs
          have noOwn : ∀ b, ¬ (0 < s.held b ∨ s.pc b = .locked ∨ s.pc b = .closing) := by
            intro b hb
            obtain ⟨m, h4, _⟩ := h.own b hb
            rw [hl] at h4; cases h4
          have noCreated : ∀ b i m, s.pc b ≠ .created i m := by
            intro b i m hb
            have := (h.created b i m hb).1
            rw [hl] at this; cases this
          refine ⟨?_, h.once, ?_, ?_, ?_, ?_, ?_, ?_, ?_⟩
          · intro b hb
            exfalso
            by_cases e : b = a
            · subst e
              rw [go_self] at hb
              simp [h0] at hb
            · rw [go_other _ _ e] at hb
              exact noOwn b hb
          · intro b hb
            exact absurd (.inl hb) (noOwn b)
          · intro b j m hb
            by_cases e : b = a
            · subst e
              rw [go_self] at hb
              injection hb with _ hb
              subst hb
              simp
            · rw [go_other _ _ e] at hb
              exact absurd hb (noCreated b j m)
          · intro b c j l m n hb hc
            by_cases e : b = a
            · by_cases e' : c = a
              · rw [e, e']
              · rw [go_other _ _ e'] at hc; exact absurd hc (noCreated c l n)
            · rw [go_other _ _ e] at hb; exact absurd hb (noCreated b j m)
          · intro b j m hb ho
            by_cases e : b = a
            · subst e; rw [go_self] at hb; cases hb
            · rw [go_other _ _ e] at hb
              have hlt := h.readLt b j m hb
              simp only [go_owner] at ho
              rw [if_neg (by omega)] at ho
              have := h.reading b j m hb ho
              rw [hl] at this; cases this
          · intro b j m hb
            by_cases e : b = a
            · subst e; rw [go_self] at hb; cases hb
            · rw [go_other _ _ e] at hb
              have hlt := h.readLt b j m hb
              simp only [go_next]; omega
          · intro m hm
            simp only [go_lock] at hm
            injection hm with hm
            simp only [go_next]; omega
          · intro b
            by_cases e : b = a
            · subst e; rw [go_self]; simp
            · rw [go_other _ _ e]; exact h.noFail b
        · injection hs with hs; subst hs
          exact lockInv_go h (by rw [h0]; intro hx; omega) (by simp) (by simp) (by simp) (by simp)
      · injection hs with hs; subst hs; exact absurd (go_self ..) h2
    · -- present
      rename_i i hp
      have h0 := held0 (by rw [hp]; simp)
      split at hs
      · injection hs with hs; subst hs; exact absurd (go_self ..) h2
      · rename_i ino hl
        injection hs with hs; subst hs
        exact lockInv_go h (by rw [h0]; intro hx; omega) (by simp) (by simp)
          (by intro j m hm; injection hm with _ hm; rw [hl, hm]) (by simp)
    · -- reading
      rename_i i ino hp
      have h0 := held0 (by rw [hp]; simp)
      split at hs
      · injection hs with hs; subst hs
        exact lockInv_go h (by rw [h0]; intro hx; omega) (by simp) (by simp) (by simp) (by simp)
      · rename_i b ho
        split at hs
        · rename_i e
          injection hs with hs; subst hs
          rw [e] at ho
          exact lockInv_go h (by rw [h0]; intro hx; omega) (fun _ => ⟨ino, h.reading a i ino hp ho, ho⟩) (by simp) (by simp) (by simp)
        · split at hs
          · injection hs with hs; subst hs
            exact lockInv_go h (by rw [h0]; intro hx; omega) (by simp) (by simp) (by simp) (by simp)
          · injection hs with hs; subst hs; exact absurd (go_self ..) h3
    · -- created
      rename_i i ino hp
      have h0 := held0 (by rw [hp]; simp)
      obtain ⟨hl, hn⟩ := h.created a i ino hp
      injection hs with hs
      subst hs
      have noOwn : ∀ b, ¬ (0 < s.held b ∨ s.pc b = .locked ∨ s.pc b = .closing) := by
        intro b hb
        obtain ⟨m, h4, h5⟩ := h.own b hb
        rw [hl] at h4
        injection h4 with h4
        rw [← h4, hn] at h5; cases h5
      refine ⟨?_, h.once, ?_, ?_, ?_, ?_, ?_, h.lockLt, ?_⟩
      · intro b hb
        exfalso
        by_cases e : b = a
        · subst e
          rw [go_self] at hb
          simp [h0] at hb
        · rw [go_other _ _ e] at hb
          exact noOwn b hb
      · intro b hb
        exact absurd (.inl hb) (noOwn b)
      · intro b j m hb
        by_cases e : b = a
        · subst e; rw [go_self] at hb; cases hb
        · rw [go_other _ _ e] at hb
          exact absurd (h.one b a j i m ino hb hp) e
      · intro b c j l m n hb hc
        by_cases e : b = a
        · subst e; rw [go_self] at hb; cases hb
        · rw [go_other _ _ e] at hb
          exact absurd (h.one b a j i m ino hb hp) e
      · intro b j m hb ho
        by_cases e : b = a
        · subst e; rw [go_self] at hb; cases hb
        · rw [go_other _ _ e] at hb
          simp only [go_owner] at ho
          split at ho
          · injection ho with ho; exact absurd ho.symm e
          · exact h.reading b j m hb ho
      · intro b j m hb
        by_cases e : b = a
        · subst e; rw [go_self] at hb; cases hb
        · rw [go_other _ _ e] at hb; exact h.readLt b j m hb
      · intro b
        by_cases e : b = a
        · subst e; rw [go_self]; simp
        · rw [go_other _ _ e]; exact h.noFail b
    · rename_i hp; exact absurd hp (h.noFail a).2
    · rename_i hp; exact absurd hp (h.noFail a).1
    · -- locked
      rename_i hp
      have h0 := held0 (by rw [hp]; simp)
      have ho := h.own a (.inr (.inl hp))
      injection hs with hs
      subst hs
      refine ⟨?_, ?_, ?_, ?_, ?_, ?_, ?_, h.lockLt, ?_⟩
      · intro b hb
        by_cases e : b = a
        · subst e; exact ho
        · rw [go_other _ _ e] at hb
          simp only [go_held, if_neg e] at hb
          exact h.own b hb
      · intro b
        simp only [go_held]
        split
        · omega
        · exact h.once b
      · intro b hb
        by_cases e : b = a
        · subst e; rw [go_self]
        · rw [go_other _ _ e]
          simp only [go_held, if_neg e] at hb
          exact h.free b hb
      · intro b j m hb
        by_cases e : b = a
        · subst e; rw [go_self] at hb; cases hb
        · rw [go_other _ _ e] at hb; exact h.created b j m hb
      · intro b c j l m n hb hc
        by_cases e : b = a
        · subst e; rw [go_self] at hb; cases hb
        · by_cases e' : c = a
          · subst e'; rw [go_self] at hc; cases hc
          · rw [go_other _ _ e] at hb; rw [go_other _ _ e'] at hc; exact h.one b c j l m n hb hc
      · intro b j m hb hm
        by_cases e : b = a
        · subst e; rw [go_self] at hb; cases hb
        · rw [go_other _ _ e] at hb; exact h.reading b j m hb hm
      · intro b j m hb
        by_cases e : b = a
        · subst e; rw [go_self] at hb; cases hb
        · rw [go_other _ _ e] at hb; exact h.readLt b j m hb
      · intro b
        by_cases e : b = a
        · subst e; rw [go_self]; simp
        · rw [go_other _ _ e]; exact h.noFail b
    · -- closing
      rename_i hp
      have h0 := held0 (by rw [hp]; simp)
      injection hs with hs
      subst hs
      have := lockInv_remove (k := s.held a) h (h.own a (.inr (.inr hp))) (by rw [hp]; simp) (by omega) (by rw [hp]; simp)
      have he : (fun x => if x = a then s.held a else s.held x) = s.held := by
        funext x
        split
        · rename_i e; rw [e]
        · rfl
      rw [he] at this
      exact this

theorem lockInv_careful {s : LockState} (h : Careful s) : LockInv s := by
  induction h with
  | start => exact lockInv_start
  | step _ hs h1 h2 h3 ih => exact lockInv_step ih hs h1 h2 h3

/-- **C42**, in part: in every interleaving of any number of threads and processes, which may die at any point, at most one has
the file open, and it owns the lock file, provided that no acquire of the lock fails, no thread acquires the file twice and no
lock of a dead process is taken over.  Missing: those three, each of which breaks it (below). -/
theorem C42_exclusive_partial (s : LockState) (h : Careful s) :
    Exclusive s ∧ ∀ a, 0 < s.held a → ∃ ino, s.lock = some ino ∧ s.owner ino = some a := by
  have hi := lockInv_careful h
  have ho : ∀ a, 0 < s.held a → ∃ ino, s.lock = some ino ∧ s.owner ino = some a := fun a ha => hi.own a (.inl ha)
  refine ⟨?_, ho⟩
  intro a b ha hb
  obtain ⟨m, h1, h2⟩ := ho a ha.2
  obtain ⟨n, h3, h4⟩ := ho b hb.2
  rw [h1] at h3
  injection h3 with h3
  rw [← h3, h2] at h4
  injection h4

/-! ### Executions -/

/-- The file is free: the thread creates the lock, reads it back and opens the file. -/
def acquireSteps (a : Agent) : List (Agent × LockAct) :=
  [(a, .begin), (a, .next), (a, .next), (a, .next), (a, .next), (a, .next), (a, .next)]

/-- The lock is held: ten attempts, each of which finds the lock of another process; then the acquire fails. -/
def refusedSteps (a : Agent) : List (Agent × LockAct) :=
  (a, .begin) :: List.replicate 32 (a, .next)

/-- Three processes. -/
def p1 : Agent := ⟨1, 1⟩
def p2 : Agent := ⟨2, 1⟩
def p3 : Agent := ⟨3, 1⟩

/-- Runs an interleaving as long as it is careful. -/
def carefulRun : LockState → List (Agent × LockAct) → Option LockState
  | s, [] => some s
  | s, x :: xs =>
    (lockStep s x.1 x.2).bind (fun s' =>
      if (x.2 = .begin → s.held x.1 = 0) ∧ s'.pc x.1 ≠ .failing ∧ s'.pc x.1 ≠ .takeover then carefulRun s' xs else none)

theorem carefulRun_careful : ∀ (xs : List (Agent × LockAct)) {s s' : LockState}, Careful s → carefulRun s xs = some s' → Careful s' := by
  intro xs
  induction xs with
  | nil => intro s s' h e; injection e with e; rw [← e]; exact h
  | cons x xs ih =>
    intro s s' h e
    rw [carefulRun] at e
    cases hs : lockStep s x.1 x.2 with
    | none => rw [hs] at e; cases e
    | some t =>
      rw [hs, Option.bind_some] at e
      split at e
      · rename_i hc
        exact ih (.step h hs hc.1 hc.2.1 hc.2.2) e
      · cases e

/-- The state an interleaving ends in, if `f` of it is `true`. -/
theorem run_ends {o : Option LockState} {f : LockState → Bool} (h : o.any f = true) : ∃ s, o = some s ∧ f s = true := by
  cases o with
  | none => cases h
  | some s => exact ⟨s, rfl, h⟩

-- a careful execution that is not trivial: two processes use the file one after the other, the second one tries while the first
-- still has it, and a third dies
example : ∃ s, Careful s ∧ Holds s p2 := by
  obtain ⟨s, h1, h2⟩ := run_ends (f := fun s => s.alive 2 && decide (s.held p2 = 1))
    (o := carefulRun .start (acquireSteps p1 ++ [(p2, .begin), (p2, .next), (p2, .next), (p1, .release), (p2, .next), (p3, .die)] ++
      List.replicate 6 (p2, .next))) (by decide)
  simp at h2
  exact ⟨s, carefulRun_careful _ .start h1, h2.1, by omega⟩

/-- **C42 is false**: an acquire that fails removes the lock of the process that has it.  `AcquireFileInfo` (file.c:326-329) calls
`DestroyFileInfo` when the lock could not be acquired, which removes the lock file whoever owns it (file.c:443, 813).  One
process has the file open, a second one gives up after ten attempts, and a third one acquires the file. -/
theorem C42_failed_violated : ∃ s, Reachable s ∧ ¬ Exclusive s := by
  obtain ⟨s, h1, h2⟩ := run_ends (f := fun s => s.alive 1 && s.alive 3 && decide (s.held p1 = 1) && decide (s.held p3 = 1))
    (o := lockRun .start (acquireSteps p1 ++ refusedSteps p2 ++ acquireSteps p3)) (by decide)
  simp at h2
  exact ⟨s, ⟨_, h1⟩, fun h => absurd (h p1 p3 ⟨h2.1.1.1, by omega⟩ ⟨h2.1.1.2, by omega⟩) (by decide)⟩

/-- **C42 is false**: a thread that has the file open acquires it again (file.c:177-182), and when it releases one of the two the
lock is gone; then another process acquires the file.  No acquire fails here. -/
theorem C42_nested_violated : ∃ xs s, lockRun .start xs = some s ∧ (∀ x ∈ xs, x.2 ≠ .denied ∧ x.2 ≠ .die) ∧ ¬ Exclusive s := by
  obtain ⟨s, h1, h2⟩ := run_ends (f := fun s => s.alive 1 && s.alive 3 && decide (s.held p1 = 1) && decide (s.held p3 = 1))
    (o := lockRun .start (acquireSteps p1 ++ [(p1, .begin), (p1, .next), (p1, .next), (p1, .next), (p1, .next), (p1, .release)] ++
      acquireSteps p3)) (by decide)
  simp at h2
  exact ⟨_, s, h1, by decide, fun h => absurd (h p1 p3 ⟨h2.1.1.1, by omega⟩ ⟨h2.1.1.2, by omega⟩) (by decide)⟩

/-- **C42 is false**: two processes see the lock of a dead one; the first removes it and then acquires the file; the second,
still about to remove the lock it saw, removes that of the first (file.c:196-206), and a third process acquires the file. -/
theorem C42_takeover_violated : ∃ s, Reachable s ∧ ¬ Exclusive s ∧ s.alive 9 = false := by
  obtain ⟨s, h1, h2⟩ := run_ends (f := fun s => s.alive 1 && s.alive 3 && decide (s.held p1 = 1) && decide (s.held p3 = 1) && !s.alive 9)
    (o := lockRun .start (acquireSteps ⟨9, 1⟩ ++ [(⟨9, 1⟩, .die)] ++ ((p1, .begin) :: List.replicate 3 (p1, .next)) ++
      ((p2, .begin) :: List.replicate 3 (p2, .next)) ++ List.replicate 2 (p1, .next) ++ acquireSteps p1 ++ [(p2, .next)] ++
      acquireSteps p3)) (by decide)
  simp at h2
  exact ⟨s, ⟨_, h1⟩, fun h => absurd (h p1 p3 ⟨h2.1.1.1.1, by omega⟩ ⟨h2.1.1.1.2, by omega⟩) (by decide), h2.2⟩

/-! ### C79: locks of the dead -/

/-- **C79 is false**: a lock file left by a process that died is removed, but the acquire that removes it fails all the same: the
`continue` that `i--` prepares is a `break` (file.c:200-205).  For every state with such a lock, with no other thread moving. -/
theorem C79_first_violated (s : LockState) (a b : Agent) (ino : Nat) (ha : s.alive a.pid = true) (hp : s.pc a = .idle) (hl : s.lock = some ino)
    (ho : s.owner ino = some b) (hb : s.alive b.pid = false) :
    ∃ s', lockRun s ((a, .begin) :: List.replicate 5 (a, .next)) = some s' ∧ s'.pc a = .idle ∧ s'.held = s.held ∧ s'.lock = none ∧
      s'.alive = s.alive := by
  have hne : b ≠ a := by intro e; rw [e, ha] at hb; cases hb
  simp only [List.replicate, lockRun, lockStep, lockNext, ha, hp, hl, ho, hb, hne, go_self, go_alive, go_lock, go_owner, if_true, Option.bind_some,
    Bool.false_eq_true, if_false, Nat.reduceLT]
  refine ⟨_, rfl, ?_, rfl, rfl, rfl⟩
  simp

/-- **C79**, in part: the next acquire of a thread succeeds if no other thread moves.  Missing: the first one does not. -/
theorem C79_second_partial (s : LockState) (a : Agent) (ha : s.alive a.pid = true) (hp : s.pc a = .idle) (hl : s.lock = none) :
    ∃ s', lockRun s (acquireSteps a) = some s' ∧ s'.pc a = .idle ∧ s'.held a = s.held a + 1 := by
  simp only [acquireSteps, lockRun, lockStep, lockNext, ha, hp, hl, go_self, go_alive, go_lock, go_owner, go_held, if_true, Option.bind_some, Nat.reduceLT]
  refine ⟨_, rfl, ?_, ?_⟩
  · simp
  · simp

-- such a lock arises
example : ∃ s : LockState, Reachable s ∧ s.alive p1.pid = true ∧ s.pc p1 = .idle ∧ s.lock = some 0 ∧ s.owner 0 = some p2 ∧ s.alive p2.pid = false := by
  obtain ⟨s, h1, h2⟩ := run_ends (f := fun s => s.alive p1.pid && decide (s.pc p1 = .idle) && decide (s.lock = some 0) &&
    decide (s.owner 0 = some p2) && !s.alive p2.pid)
    (o := lockRun .start (acquireSteps p2 ++ [(p2, .die)])) (by decide)
  simp at h2
  exact ⟨s, ⟨_, h1⟩, h2.1.1.1.1, h2.1.1.1.2, h2.1.1.2, h2.1.2, h2.2⟩

end Wizard.Props

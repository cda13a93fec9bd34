import Verif.Spec.Timer
/-! C128: stopwatches. -/
namespace Wizard.Props
open Wizard Wizard.Spec

/-- The calls are not `ResetTimer`, and none restarts (with reset) a timer that runs. -/
def PlainCalls : Bool → List (Clocks × TimerCall) → Prop
  | _, [] => True
  | running, (_, .start r) :: cs => (r = true → running = false) ∧ PlainCalls true cs
  | _, (_, .resume) :: cs => PlainCalls true cs
  | _, (_, .elapsed) :: cs => PlainCalls false cs
  | _, (_, .user) :: cs => PlainCalls false cs
  | _, (_, .reset) :: _ => False

/-- The timer and the stopwatch, `k` epsilons apart. -/
structure Tracks (epsilon : Int) (k : Nat) (t : TimerInfo) (w : Watch) : Prop where
  startE : t.elapsed.start = w.since.elapsed
  startU : t.user.start = w.since.user
  state : (t.state = .running ∧ w.stopped = none ∧ t.elapsed.total = w.past.elapsed + k * epsilon ∧ t.user.total = w.past.user + k * epsilon) ∨
    (t.state = .stopped ∧ ∃ s, w.stopped = some s ∧ t.elapsed.stop = s.elapsed ∧ t.user.stop = s.user ∧
      t.elapsed.total = w.past.elapsed + (s.elapsed - w.since.elapsed) + k * epsilon ∧ t.user.total = w.past.user + (s.user - w.since.user) + k * epsilon)

theorem near_mono {a b : Int} (h : a ≤ b) : ∀ {xs ys : List (Option Int)}, Near a xs ys → Near b xs ys
  | [], [], _ => trivial
  | none :: xs, none :: ys, hn => near_mono (xs := xs) (ys := ys) h hn
  | some x :: xs, some y :: ys, hn => ⟨hn.1, by have := hn.2.1; omega, near_mono h hn.2.2⟩
  | [], _ :: _, hn => by cases hn
  | none :: _, [], hn => by cases hn
  | some _ :: _, [], hn => by cases hn
  | none :: _, some _ :: _, hn => by cases hn
  | some _ :: _, none :: _, hn => by cases hn

theorem tracks_read {epsilon : Int} {k : Nat} {t : TimerInfo} {w : Watch} (h : Tracks epsilon k t w) (c : Clocks) :
    ∃ t', getElapsed epsilon c t = (t'.elapsed.total, t') ∧ getUser epsilon c t = (t'.user.total, t') ∧
    t'.state = .stopped ∧ ∃ j, j ≤ k + 1 ∧ Tracks epsilon j t' { w with stopped := some (w.stopped.getD c) } ∧
      t'.elapsed.total = (w.shows c).elapsed + j * epsilon ∧ t'.user.total = (w.shows c).user + j * epsilon := by
  rcases h.state with ⟨h1, h2, h3, h4⟩ | ⟨h1, s, h2, h3, h4, h5, h6⟩
  · refine ⟨stopTimer epsilon c t, ?_, ?_, rfl, k + 1, Nat.le_refl _, ⟨?_, ?_, .inr ⟨rfl, c, by rw [h2]; rfl, ?_⟩⟩, ?_, ?_⟩
    · simp [getElapsed, h1]
    · simp [getUser, h1]
    · simp [stopTimer, h1, h.startE]
    · simp [stopTimer, h1, h.startU]
    · simp only [stopTimer, h1, if_true]
      refine ⟨trivial, trivial, ?_, ?_⟩
      · rw [h3, h.startE, Int.natCast_add, Int.add_mul]; omega
      · rw [h4, h.startU, Int.natCast_add, Int.add_mul]; omega
    · simp only [stopTimer, h1, if_true, Watch.shows, h2, Option.getD_none, Clocks.plus, Clocks.minus]
      rw [h3, h.startE, Int.natCast_add, Int.add_mul]; omega
    · simp only [stopTimer, h1, if_true, Watch.shows, h2, Option.getD_none, Clocks.plus, Clocks.minus]
      rw [h4, h.startU, Int.natCast_add, Int.add_mul]; omega
  · refine ⟨t, ?_, ?_, h1, k, Nat.le_succ _, ⟨h.startE, h.startU, .inr ⟨h1, s, by rw [h2]; rfl, h3, h4, h5, h6⟩⟩, ?_, ?_⟩
    · simp [getElapsed, h1]
    · simp [getUser, h1]
    · simp only [Watch.shows, h2, Option.getD_some, Clocks.plus, Clocks.minus]; exact h5
    · simp only [Watch.shows, h2, Option.getD_some, Clocks.plus, Clocks.minus]; exact h6

theorem tracks_start {epsilon : Int} {k : Nat} {t : TimerInfo} {w : Watch} (h : Tracks epsilon k t w) (c : Clocks) (r : Bool)
    (hr : r = true → t.state ≠ .running) : ∃ j, j ≤ k ∧ Tracks epsilon j (startTimer c t r) (w.call c (.start r)) ∧ (startTimer c t r).state = .running := by
  rcases h.state with ⟨h1, h2, h3, h4⟩ | ⟨h1, s, h2, h3, h4, h5, h6⟩
  · cases r with
    | true => exact absurd h1 (hr rfl)
    | false =>
      have e : startTimer c t false = t := by cases t; simp_all [startTimer]
      rw [e]
      refine ⟨k, Nat.le_refl _, ?_, h1⟩
      simp only [Watch.call, h2]
      exact h
  · cases r with
    | true =>
      refine ⟨0, Nat.zero_le _, ⟨?_, ?_, .inl ⟨rfl, rfl, ?_, ?_⟩⟩, rfl⟩
      · simp [startTimer, h1, Watch.call]
      · simp [startTimer, h1, Watch.call]
      · simp [startTimer, h1, Watch.call]
      · simp [startTimer, h1, Watch.call]
    | false =>
      refine ⟨k, Nat.le_refl _, ⟨?_, ?_, .inl ⟨rfl, ?_, ?_, ?_⟩⟩, rfl⟩
      · simp [startTimer, h1, Watch.call, h2]
      · simp [startTimer, h1, Watch.call, h2]
      · simp [Watch.call, h2]
      · simp [startTimer, h1, Watch.call, h2, Watch.shows, Clocks.plus, Clocks.minus, h5]
      · simp [startTimer, h1, Watch.call, h2, Watch.shows, Clocks.plus, Clocks.minus, h6]

theorem tracks_continue {epsilon : Int} {k : Nat} {t : TimerInfo} {w : Watch} (h : Tracks epsilon k t w) :
    Tracks epsilon k (continueTimer t).1 { w with stopped := none } ∧ (continueTimer t).1.state = .running := by
  rcases h.state with ⟨h1, h2, h3, h4⟩ | ⟨h1, s, h2, h3, h4, h5, h6⟩
  · simp only [continueTimer, h1]
    exact ⟨⟨h.startE, h.startU, .inl ⟨rfl, rfl, h3, h4⟩⟩, rfl⟩
  · simp only [continueTimer, h1]
    refine ⟨⟨h.startE, h.startU, .inl ⟨rfl, rfl, ?_, ?_⟩⟩, rfl⟩
    · simp only [if_true, reduceCtorEq, if_false]; rw [h5, h3, h.startE]; omega
    · simp only [if_true, reduceCtorEq, if_false]; rw [h6, h4, h.startU]; omega

theorem tracks_run {epsilon : Int} (he : 0 ≤ epsilon) : ∀ (cs : List (Clocks × TimerCall)) {k : Nat} {t : TimerInfo} {w : Watch}, Tracks epsilon k t w →
    PlainCalls (t.state == .running) cs → Near ((k + cs.length : Nat) * epsilon) (timerRun epsilon t cs).1 (w.run cs)
  | [], _, _, _, _, _ => trivial
  | (c, op) :: cs, k, t, w, h, hp => by
    have mono : ∀ j, j ≤ k + 1 → ((j + cs.length : Nat) : Int) * epsilon ≤ ((k + ((c, op) :: cs).length : Nat) : Int) * epsilon := by
      intro j hj
      refine Int.mul_le_mul_of_nonneg_right ?_ he
      simp only [List.length_cons]; omega
    have slack : ∀ j : Nat, j ≤ k + 1 → (j : Int) * epsilon ≤ ((k + ((c, op) :: cs).length : Nat) : Int) * epsilon := by
      intro j hj
      refine Int.mul_le_mul_of_nonneg_right ?_ he
      simp only [List.length_cons]; omega
    have pos : ∀ j : Nat, 0 ≤ (j : Int) * epsilon := fun j => Int.mul_nonneg (Int.natCast_nonneg _) he
    cases op with
    | start r =>
      have hr : r = true → t.state ≠ .running := by
        intro e h1
        have := hp.1 e
        rw [h1] at this; simp at this
      obtain ⟨j, hj, h1, h2⟩ := tracks_start h c r hr
      have := tracks_run he cs h1 (by rw [h2]; exact hp.2)
      exact near_mono (mono j (by omega)) this
    | resume =>
      obtain ⟨h1, h2⟩ := tracks_continue h
      have := tracks_run he cs h1 (by rw [h2]; exact hp)
      exact near_mono (mono k (by omega)) this
    | elapsed =>
      obtain ⟨t', e1, _, h2, j, hj, h3, h4, _⟩ := tracks_read h c
      have := tracks_run he cs h3 (by rw [h2]; exact hp)
      simp only [timerRun, timerCall, e1]
      exact ⟨by rw [h4]; have := pos j; omega, by rw [h4]; have := slack j hj; omega, near_mono (mono j hj) this⟩
    | user =>
      obtain ⟨t', _, e1, h2, j, hj, h3, _, h4⟩ := tracks_read h c
      have := tracks_run he cs h3 (by rw [h2]; exact hp)
      simp only [timerRun, timerCall, e1]
      exact ⟨by rw [h4]; have := pos j; omega, by rw [h4]; have := slack j hj; omega, near_mono (mono j hj) this⟩
    | reset => cases hp

/-- **C128** Whatever is done with a timer (but resetting it, or restarting it with reset while it runs), the times it returns are those of a
stopwatch, but for one epsilon per call at most. -/
theorem C128_stopwatch_partial (epsilon : Int) (he : 0 ≤ epsilon) (c : Clocks) (calls : List (Clocks × TimerCall)) (hp : PlainCalls true calls) :
    Near (calls.length * epsilon) (timerRun epsilon (acquireTimer c) calls).1 (Watch.run ⟨⟨0, 0⟩, c, none⟩ calls) := by
  have h : Tracks epsilon 0 (acquireTimer c) ⟨⟨0, 0⟩, c, none⟩ := by
    refine ⟨rfl, rfl, .inl ⟨rfl, rfl, ?_, ?_⟩⟩
    · simp [acquireTimer, startTimer]
    · simp [acquireTimer, startTimer]
  have := tracks_run he calls h hp
  rw [Nat.zero_add] at this
  exact this

/-- Read, resume, read, start again, read. -/
example : (timerRun 0 (acquireTimer ⟨100, 0⟩) [(⟨105, 1⟩, .elapsed), (⟨107, 2⟩, .resume), (⟨110, 3⟩, .elapsed), (⟨200, 4⟩, .start false), (⟨201, 5⟩, .user), (⟨203, 6⟩, .elapsed)]).1 =
    [some 5, none, some 10, none, some 4, some 11] ∧ PlainCalls true [(⟨105, 1⟩, .elapsed), (⟨107, 2⟩, .resume), (⟨110, 3⟩, .elapsed), (⟨200, 4⟩, .start false), (⟨201, 5⟩, .user), (⟨203, 6⟩, .elapsed)] := by
  refine ⟨by decide +kernel, ?_⟩
  simp [PlainCalls]

/-- **C128 is false** of restarting a timer that runs: it goes on counting from the earlier start. -/
theorem C128_restart_violated (epsilon : Int) (a b d : Clocks) :
    (timerRun epsilon (acquireTimer a) [(b, .start true), (d, .elapsed)]).1 = [none, some (d.elapsed - a.elapsed + epsilon)] ∧
    Watch.run ⟨⟨0, 0⟩, a, none⟩ [(b, .start true), (d, .elapsed)] = [none, some (d.elapsed - b.elapsed)] := by
  constructor
  · simp [timerRun, timerCall, acquireTimer, startTimer, getElapsed, stopTimer]
  · simp [Watch.run, Watch.call, Watch.shows, Clocks.plus, Clocks.minus]

/-- **C128 is false** of `ResetTimer`: the timer still shows the time before, and resuming adds the time at which it was started. -/
theorem C128_reset_violated (epsilon : Int) (a b d e f : Clocks) :
    (timerRun epsilon (acquireTimer a) [(b, .reset), (d, .elapsed), (e, .resume), (f, .elapsed)]).1 =
      [none, some (b.elapsed - a.elapsed + epsilon), none, some (b.elapsed + f.elapsed - a.elapsed + epsilon + epsilon)] ∧
    Watch.run ⟨⟨0, 0⟩, a, none⟩ [(b, .reset), (d, .elapsed), (e, .resume), (f, .elapsed)] = [none, some 0, none, some (f.elapsed - b.elapsed)] := by
  constructor
  · simp [timerRun, timerCall, acquireTimer, startTimer, getElapsed, stopTimer, resetTimer, continueTimer]
    omega
  · simp [Watch.run, Watch.call, Watch.shows, Clocks.plus, Clocks.minus]

/-- **C128 is false** of `ResetTimer` for a timer that is stopped, too: it keeps showing the time it was stopped at. -/
theorem C128_reset_stopped_violated (epsilon : Int) (a b d e : Clocks) :
    (timerRun epsilon (acquireTimer a) [(b, .elapsed), (d, .reset), (e, .elapsed)]).1 = [some (b.elapsed - a.elapsed + epsilon), none, some (b.elapsed - a.elapsed + epsilon)] ∧
    Watch.run ⟨⟨0, 0⟩, a, none⟩ [(b, .elapsed), (d, .reset), (e, .elapsed)] = [some (b.elapsed - a.elapsed), none, some 0] := by
  constructor
  · simp [timerRun, timerCall, acquireTimer, startTimer, getElapsed, stopTimer, resetTimer]
  · simp [Watch.run, Watch.call, Watch.shows, Clocks.plus, Clocks.minus]

end Wizard.Props

import Verif.Model.Timer
/-! What a stopwatch shows. -/
namespace Wizard.Spec
open Wizard

/-- A stopwatch over two clocks: the time of the spells that are over, when the present spell began, and when it was stopped. -/
structure Watch where
  past : Clocks
  since : Clocks
  stopped : Option Clocks

def Clocks.plus (a b : Clocks) : Clocks := ⟨a.elapsed + b.elapsed, a.user + b.user⟩
def Clocks.minus (a b : Clocks) : Clocks := ⟨a.elapsed - b.elapsed, a.user - b.user⟩

/-- What it shows. -/
def Watch.shows (w : Watch) (now : Clocks) : Clocks := Clocks.plus w.past (Clocks.minus (w.stopped.getD now) w.since)

/-- What the calls should do: starting begins a spell (and, with `reset`, forgets the others); reading stops the watch; resuming goes on
counting from the last start (timer.c:126-127); resetting forgets everything. -/
def Watch.call (w : Watch) (now : Clocks) : TimerCall → Watch
  | .start true => ⟨⟨0, 0⟩, now, none⟩
  | .start false => match w.stopped with
    | none => w
    | some _ => ⟨w.shows now, now, none⟩
  | .resume => { w with stopped := none }
  | .elapsed => { w with stopped := some (w.stopped.getD now) }
  | .user => { w with stopped := some (w.stopped.getD now) }
  | .reset => ⟨⟨0, 0⟩, now, some now⟩

/-- The times that should be returned. -/
def Watch.run (w : Watch) : List (Clocks × TimerCall) → List (Option Int)
  | [] => []
  | (c, .elapsed) :: cs => some (w.shows c).elapsed :: (w.call c .elapsed).run cs
  | (c, .user) :: cs => some (w.shows c).user :: (w.call c .user).run cs
  | (c, op) :: cs => none :: (w.call c op).run cs

/-- Equal but for at most `slack`. -/
def Near (slack : Int) : List (Option Int) → List (Option Int) → Prop
  | [], [] => True
  | none :: as, none :: bs => Near slack as bs
  | some a :: as, some b :: bs => b ≤ a ∧ a ≤ b + slack ∧ Near slack as bs
  | _, _ => False

end Wizard.Spec

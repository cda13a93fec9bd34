import Verif.Model.Basic
/-! timer.c: stopwatches.  Times are whole numbers of some small unit and arithmetic is exact (a simplification: the code has doubles);
`epsilon` is `WizardEpsilon` (timer.h:25) in that unit. -/
namespace Wizard

/-- timer.h:26-32. -/
inductive TimerState where
  | undefined | stopped | running
  deriving DecidableEq, Repr

/-- timer.h:34-40. -/
structure Stopwatch where
  start : Int := 0
  stop : Int := 0
  total : Int := 0
  deriving DecidableEq, Repr

/-- timer-private.h `TimerInfo`. -/
structure TimerInfo where
  user : Stopwatch := {}
  elapsed : Stopwatch := {}
  state : TimerState := .undefined
  deriving DecidableEq, Repr

/-- What the two clocks show (timer.c:211-226 `ElapsedTime`, 462-476 `UserTime`). -/
structure Clocks where
  elapsed : Int
  user : Int

/-- timer.c:380-400 `StartTimer`. -/
def startTimer (c : Clocks) (t : TimerInfo) (reset : Bool) : TimerInfo :=
  let t := if reset then { t with user := { t.user with total := 0 }, elapsed := { t.elapsed with total := 0 } } else t
  let t := if t.state ≠ .running then { t with elapsed := { t.elapsed with start := c.elapsed }, user := { t.user with start := c.user } } else t
  { t with state := .running }

/-- timer.c:423-438 `StopTimer`. -/
def stopTimer (epsilon : Int) (c : Clocks) (t : TimerInfo) : TimerInfo :=
  let t := { t with elapsed := { t.elapsed with stop := c.elapsed }, user := { t.user with stop := c.user } }
  let t := if t.state = .running then
      { t with user := { t.user with total := t.user.total + (t.user.stop - t.user.start + epsilon) }
               elapsed := { t.elapsed with total := t.elapsed.total + (t.elapsed.stop - t.elapsed.start + epsilon) } }
    else t
  { t with state := .stopped }

/-- timer.c:101-113, 278-286 `AcquireTimerInfo` and `GetTimerInfo`. -/
def acquireTimer (c : Clocks) : TimerInfo := startTimer c {} true

/-- timer.c:138-152 `ContinueTimer`. -/
def continueTimer (t : TimerInfo) : TimerInfo × Bool :=
  if t.state = .undefined then (t, false)
  else
    let t := if t.state = .stopped then
        { t with user := { t.user with total := t.user.total - (t.user.stop - t.user.start) }
                 elapsed := { t.elapsed with total := t.elapsed.total - (t.elapsed.stop - t.elapsed.start) } }
      else t
    ({ t with state := .running }, true)

/-- timer.c:244-253 `GetElapsedTime`. -/
def getElapsed (epsilon : Int) (c : Clocks) (t : TimerInfo) : Int × TimerInfo :=
  if t.state = .undefined then (0, t)
  else
    let t := if t.state = .running then stopTimer epsilon c t else t
    (t.elapsed.total, t)

/-- timer.c:312-321 `GetUserTime`. -/
def getUser (epsilon : Int) (c : Clocks) (t : TimerInfo) : Int × TimerInfo :=
  if t.state = .undefined then (0, t)
  else
    let t := if t.state = .running then stopTimer epsilon c t else t
    (t.user.total, t)

/-- timer.c:345-352 `ResetTimer`. -/
def resetTimer (epsilon : Int) (c : Clocks) (t : TimerInfo) : TimerInfo :=
  let t := stopTimer epsilon c t
  { t with elapsed := { t.elapsed with stop := 0 }, user := { t.user with stop := 0 } }

/-- The calls on a timer. -/
inductive TimerCall where
  | start (reset : Bool)
  | resume
  | elapsed
  | user
  | reset
  deriving DecidableEq

/-- A call while the clocks show `c`: the time it returns, if any. -/
def timerCall (epsilon : Int) (c : Clocks) (t : TimerInfo) : TimerCall → Option Int × TimerInfo
  | .start r => (none, startTimer c t r)
  | .resume => (none, (continueTimer t).1)
  | .elapsed => let r := getElapsed epsilon c t; (some r.1, r.2)
  | .user => let r := getUser epsilon c t; (some r.1, r.2)
  | .reset => (none, resetTimer epsilon c t)

def timerRun (epsilon : Int) (t : TimerInfo) : List (Clocks × TimerCall) → List (Option Int) × TimerInfo
  | [] => ([], t)
  | (c, op) :: cs =>
    let r := timerCall epsilon c t op
    let rs := timerRun epsilon r.2 cs
    (r.1 :: rs.1, rs.2)

end Wizard

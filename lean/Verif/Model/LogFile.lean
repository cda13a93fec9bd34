import Verif.Model.LogText
/-! The log files of log.c. -/
namespace Wizard

/-- log.c:103-139 as far as files go: `file` is the name of the open one, `disk` all files there are.
Simplified: nobody else writes to or removes the files, the disk is never full. -/
structure LogSink where
  file : Option (List Byte)
  disk : List Byte → Option (List Byte)
  generation : Nat

/-- `fprintf` to a file opened for appending. -/
def LogSink.append (s : LogSink) (name text : List Byte) : LogSink :=
  { s with disk := fun n => if n = name then some ((s.disk n).getD [] ++ text) else s.disk n }

/-- log.c:1339: `(WizardOffsetType) (1024*1024*log_info->limit)`: a product of 64 bits, made signed. -/
def limitBytes (limit : Nat) : Int := Int.bmod (1024 * 1024 * limit) (2 ^ 64)

/-- log.c:1336-1338: the size of the open file, 0 if none is open. -/
def LogSink.size (s : LogSink) : Nat :=
  match s.file with
  | none => 0
  | some n => ((s.disk n).getD []).length

/-- log.c:1339-1344: a file beyond the limit is closed (`fprintf` to NULL is undefined). -/
def LogSink.rotate (s : LogSink) (limit : Nat) : Res LogSink :=
  if (s.size : Int) > limitBytes limit then
    match s.file with
    | none => .ub
    | some n => .ok { s.append n (ascText "</log>\n") with file := none }
  else .ok s

/-- log.c:1367-1368. -/
def logHeader : List Byte := ascText "<?xml version=\"1.0\" encoding=\"UTF-8\" standalone=\"yes\"?>\n"

/-- log.c:1331-1373 the file handler of `LogWizardEventList`; `names g` is the result of `TranslateFilename` at generation `g` (C124),
`opens` whether `fopen` succeeds; the second result is whether the function goes on to return WizardTrue. -/
def LogSink.event (names : Nat → List Byte) (limit : Nat) (text : List Byte) (opens : Bool) (s : LogSink) : Res (LogSink × Bool) := do
  let s ← s.rotate limit
  match s.file with
  | some n => .ok (s.append n (ascText "  <event>" ++ text ++ ascText "</event>\n"), true)
  | none =>
    if opens = false then .ok (s, false)
    else
      let n := names s.generation
      let exists_ := (s.disk n).isSome
      let s := { s with file := some n, generation := s.generation + 1 }
      let s := if exists_ = false then s.append n logHeader else s
      let s := s.append n (ascText "<log>\n")
      .ok (s.append n (ascText "  <event>" ++ text ++ ascText "</event>\n"), true)

/-- log.c:352-357 `CloseWizardLog`. -/
def LogSink.close (s : LogSink) : LogSink :=
  match s.file with
  | none => s
  | some n => { s.append n (ascText "</log>\n") with file := none }

/-- What a program does with the log: events (and whether a file can be opened then), and closing it. -/
inductive LogCall where
  | event (text : List Byte) (opens : Bool)
  | close

/-- One call after another; the second result lists the texts of events for which the call returned WizardTrue. -/
def LogSink.run (names : Nat → List Byte) (limit : Nat) : List LogCall → LogSink → Res (LogSink × List (List Byte))
  | [], s => .ok (s, [])
  | .close :: cs, s => LogSink.run names limit cs s.close
  | .event t o :: cs, s => do
    let (s, b) ← s.event names limit t o
    let (s, ts) ← LogSink.run names limit cs s
    .ok (s, if b then t :: ts else ts)

end Wizard

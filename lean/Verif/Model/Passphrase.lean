import Verif.Model.StringInfo
/-!
Model of /repo/wizard/passphrase.c: reading a passphrase from the terminal.

The terminal, the dispositions of signals and what the user does are the environment: `Term`. What the user does is the list
`events`: what each `read` of a byte finds. Signals arrive during a `read`, either interrupting it or (if they arrive just before it) not.
`GetPhrase` is static and only called with `EchoOffMode`, so the other modes are not modelled, nor are platforms without termios or with
`VSTATUS`. `tcsetattr`, `sigaction` and `kill` are taken to succeed. The buffer is the list of the bytes below `p`: it has
`WizardPathExtent` bytes and at most `WizardPathExtent-1` are stored before the terminating zero.
-/
namespace Wizard

/-- The signals `GetPhrase` handles (passphrase.c 183-191). -/
inductive PSig
  | alrm | hup | int | pipe | quit | term | tstp | ttin | ttou
deriving DecidableEq, Repr

/-- passphrase.c 258-260: the signals that stop a process. -/
def PSig.stops : PSig → Bool
  | .tstp | .ttin | .ttou => true
  | _ => false

/-- Dispositions of a signal: the default, ignored, `SignalHandler` (passphrase.c 121-124) or a handler of the program. -/
inductive PDisp
  | dfl | ign | ours | user
deriving DecidableEq, Repr

/-- What `read(input,&c,1)` (passphrase.c 216) meets: a byte, the end of the input, an error, a signal that interrupts it, and a signal that
arrives before it blocks, after which it reads on. -/
inductive PEvent
  | byte (b : Byte) | eof | err | sig (s : PSig) | late (s : PSig)
deriving DecidableEq, Repr

/-- The part of `struct termios` that matters: the flags ECHO and ECHONL and the rest. -/
structure TermAttr where
  echo : Bool
  echonl : Bool
  rest : Nat
deriving DecidableEq, Repr

/-- The environment. `fd` is what opening /dev/tty returns, `tc` whether `tcgetattr` succeeds, `nl` whether writing the newline succeeds,
`number` is `signal_number`, `seen` records each byte read with whether the terminal echoed it, `delivered` each signal sent by `kill` with its
disposition and the terminal's attributes at that time. -/
structure Term where
  fd : Option Nat
  tc : Bool
  nl : Bool
  attrs : TermAttr
  disp : PSig → PDisp
  number : Option PSig
  events : List PEvent
  seen : List (Byte × Bool)
  delivered : List (PSig × PDisp × TermAttr)

/-- How the loop of reads ends: `count` (none if it still waits), the phrase, and what has changed. -/
structure ReadEnd where
  count : Option Int
  phrase : List Byte
  events : List PEvent
  number : Option PSig
  seen : List (Byte × Bool)

/-- passphrase.c 216-232: the loop of reads, with the handlers of 183-191 in place. -/
def readPhrase (echo : Bool) : List PEvent → List Byte → Option PSig → List (Byte × Bool) → ReadEnd
  | [], buf, number, seen => ⟨none, buf, [], number, seen⟩
  | .byte b :: es, buf, number, seen =>
    if b = 10 ∨ b = 13 then ⟨some 1, buf, es, number, seen ++ [(b, echo)]⟩
    else readPhrase echo es (if buf.length < wizardPathExtent - 1 then buf ++ [b] else buf) number (seen ++ [(b, echo)])
  | .eof :: es, buf, number, seen => ⟨some 0, buf, es, number, seen⟩
  | .err :: es, buf, number, seen => ⟨some (-1), buf, es, number, seen⟩
  | .sig s :: es, buf, _, seen => ⟨some (-1), buf, es, some s, seen⟩
  | .late s :: es, buf, _, seen => readPhrase echo es buf (some s) seen

/-- How `GetPhrase` ends. -/
inductive PhraseEnd
  | returned (status : Bool) (phrase : List Byte) (t : Term)
  | killed (s : PSig) (t : Term)
  | blocked (t : Term)

/-- passphrase.c 183-191: every signal is handled by `SignalHandler`. -/
def handleAll (_ : PSig → PDisp) : PSig → PDisp := fun _ => .ours

/-- passphrase.c 242-249: the dispositions that are restored. -/
def restoreHandlers (saved now : PSig → PDisp) : PSig → PDisp := fun s =>
  match s with
  | .alrm => saved .alrm
  | .hup => saved .hup
  | .int => saved .int
  | .quit => saved .quit
  | .pipe => saved .pipe
  | .term => saved .term
  | .tstp => saved .tstp
  | .ttin => saved .ttin
  | s => now s

/-- `kill(getpid(),s)` (passphrase.c 257): by the disposition of the signal nothing happens, a handler runs, the process stops until it is
continued, or it dies. The first result says whether the process lives on. -/
def killSelf (t : Term) (s : PSig) : Bool × Term :=
  let t := { t with delivered := t.delivered ++ [(s, t.disp s, t.attrs)] }
  match t.disp s with
  | .dfl => if s.stops then (true, t) else (false, t)
  | .ign => (true, t)
  | .ours => (true, { t with number := some s })
  | .user => (true, t)

/-- passphrase.c 192-211: whether the terminal's attributes are known, and so changed. -/
def usesTerminal (t : Term) : Bool :=
  !(t.fd == some 0) && t.tc

/-- passphrase.c 192-211: `save_attributes`. -/
def saveAttributes (t : Term) : TermAttr := if usesTerminal t then t.attrs else ⟨true, false, 0⟩

/-- passphrase.c 192-211: `attributes`. -/
def newAttributes (t : Term) : TermAttr :=
  if usesTerminal t then { saveAttributes t with echo := false, echonl := false } else saveAttributes t

/-- passphrase.c 162, 180-211: the state in which the phrase is read. -/
def startReading (t : Term) : Term :=
  { t with number := none, disp := handleAll t.disp, attrs := if usesTerminal t then newAttributes t else t.attrs }

/-- passphrase.c 237-249: old settings and signals are restored. `t` is the state before `startReading`, `now` the state after reading. -/
def stopReading (t now : Term) : Term :=
  { now with attrs := if newAttributes t ≠ saveAttributes t then saveAttributes t else now.attrs, disp := restoreHandlers t.disp now.disp }

/-- passphrase.c 126-270 with `EchoOffMode`. `old` is the phrase before. The fuel bounds the calls of itself at 261. -/
def getPhrase : Nat → List Byte → Term → PhraseEnd
  | 0, _, t => .blocked t
  | fuel + 1, old, t =>
    if t.fd = none then .returned false old { t with number := none }
    else
      let now := startReading t
      let r := readPhrase now.attrs.echo now.events [] now.number now.seen
      let now := { now with events := r.events, number := r.number, seen := r.seen }
      match r.count with
      | none => .blocked now
      | some count =>
        let count : Int := if (newAttributes t).echo = false then (if t.nl then 1 else -1) else count
        let now := stopReading t now
        match r.number with
        | none => .returned (count != -1) r.phrase now
        | some s =>
          match killSelf now s with
          | (false, now) => .killed s now
          | (true, now) =>
            if now.number = some .tstp ∨ now.number = some .ttin ∨ now.number = some .ttou then getPhrase fuel r.phrase now
            else .returned (count != -1) r.phrase now

/-- How `GetPassphrase` ends: with a phrase or with none and an exception, killed, or waiting. -/
inductive PassEnd
  | returned (phrase : Option (List Byte)) (t : Term)
  | killed (s : PSig) (t : Term)
  | blocked (t : Term)

/-- passphrase.c 312-331: the loop. -/
def passLoop : Nat → List Byte → List Byte → Term → PassEnd
  | 0, _, _, t => .blocked t
  | fuel + 1, phrase, rephrase, t =>
    match getPhrase (t.events.length + 1) phrase t with
    | .killed s t => .killed s t
    | .blocked t => .blocked t
    | .returned false _ t => .returned none t
    | .returned true phrase t =>
      match getPhrase (t.events.length + 1) rephrase t with
      | .killed s t => .killed s t
      | .blocked t => .blocked t
      | .returned false _ t => .returned none t
      | .returned true rephrase t => if phrase = rephrase then .returned (some phrase) t else passLoop fuel phrase rephrase t

/-- passphrase.c 294-335. `CompareStringInfo` at 328 compares the bytes. -/
def getPassphrase (t : Term) : PassEnd :=
  passLoop (t.events.length + 1) (List.replicate wizardPathExtent 0) (List.replicate wizardPathExtent 0) t

end Wizard

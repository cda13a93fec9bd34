import Verif.Model.Option
import Verif.Model.Xml
/-! Settings of logs: handlers, lookup, masks (log.c). -/
namespace Wizard

/-- log.c:73-83 and 144-179: the handlers by name (the rest of the table is empty names). -/
def logHandlers : List (List Byte × Nat) :=
  [(ascText "console", 0x01), (ascText "debug", 0x10), (ascText "event", 0x20), (ascText "file", 0x08), (ascText "none", 0x00),
   (ascText "stderr", 0x04), (ascText "stdout", 0x02)]

/-- log.c:1692-1700: the first handler whose name begins the text. -/
def handlerAt (fold : Byte → Byte) (p : List Byte) : List (List Byte × Nat) → Res (Option Nat)
  | [] => .ok none
  | h :: hs => do
    let r ← localeNCompare fold (some p) (some h.1) h.1.length
    if r = 0 then .ok (some h.2) else handlerAt fold p hs

/-- log.c:1689-1691: what is handlerSep before a name. -/
def handlerSep (c : Byte) : Bool := isSpaceC c || c == asc ','

theorem dropWhile_length {α : Type} (f : α → Bool) : ∀ l : List α, (l.dropWhile f).length ≤ l.length
  | [] => Nat.le_refl _
  | a :: l => by
    rw [List.dropWhile_cons]
    split
    · exact Nat.le_succ_of_le (dropWhile_length f l)
    · exact Nat.le_refl _

theorem afterComma_lt (p : List Byte) (h : (p.dropWhile handlerSep).dropWhile (· ≠ asc ',') ≠ []) :
    ((p.dropWhile handlerSep).dropWhile (· ≠ asc ',')).length < p.length := by
  have h1 := dropWhile_length handlerSep p
  cases hp : p.dropWhile handlerSep with
  | nil => rw [hp] at h; exact absurd rfl h
  | cons c q =>
    have hc : handlerSep c = false := by
      have := List.head?_dropWhile_not handlerSep p
      rw [hp] at this; simpa using this
    have hne : (decide (c ≠ asc ',')) = true := by
      unfold handlerSep at hc
      simp only [Bool.or_eq_false_iff, beq_eq_false_iff_ne] at hc
      exact decide_eq_true hc.2
    rw [List.dropWhile_cons, if_pos hne]
    have h2 := dropWhile_length (fun x => decide (x ≠ asc ',')) q
    have : (p.dropWhile handlerSep).length = q.length + 1 := by rw [hp]; rfl
    omega

/-- log.c:1672-1705 `ParseLogHandlers`; a mask of `LogHandlerType`.  `p` is the text from the pointer on. -/
def parseLogHandlers (fold : Byte → Byte) (p : List Byte) (mask : Nat) : Res Nat := do
  match ← handlerAt fold (p.dropWhile handlerSep) logHandlers with
  | none => .ok 0
  | some h =>
    if hq : (p.dropWhile handlerSep).dropWhile (· ≠ asc ',') = [] then .ok (mask ||| h)
    else parseLogHandlers fold ((p.dropWhile handlerSep).dropWhile (· ≠ asc ',')) (mask ||| h)
termination_by p.length
decreasing_by exact afterComma_lt p hq

/-- log.c:767-781 `ListLogInfo`: the names printed for a mask. -/
def listedHandlers (mask : Nat) : List (List Byte) := (logHandlers.zipIdx.filter (fun e => mask.testBit e.2)).map (fun e => e.1.1)

/-! ### Lookup -/

/-- What a call does: it ends (or crashes), or it waits for ever. -/
inductive LogOutcome (α : Type) where
  | ends (r : Res α)
  | waits
  deriving DecidableEq

/-- log.c:103-139: what lookup looks at.  `AcquireLogCache` (304-311) and `LoadLogCache` (1542-1545) clear the structure and never set `name`. -/
structure LogEntry where
  name : Option (List Byte)
  path : List Byte
  stealth : Bool := false
  eventMask : Nat := 0
  deriving DecidableEq

/-- log.c:398-405: `GetLogInfo("*")`; `held`: the calling thread holds `log_semaphore` (not recursive, semaphore.c). -/
def getLogInfoStar (held : Bool) (cache : List LogEntry) : LogOutcome (Option LogEntry) :=
  if held then .waits else .ends (.ok cache.head?)

/-- log.c:688-703 `IsEventLogging`, the first thing `LogWizardEventList` does (1285). -/
def isEventLogging (held : Bool) (cache : List LogEntry) : LogOutcome Bool :=
  match cache with
  | [] => .ends (.ok false)
  | _ :: _ =>
    match getLogInfoStar held cache with
    | .waits => .waits
    | .ends (.ok none) => .ends .ub
    | .ends (.ok (some e)) => .ends (.ok (e.eventMask != 0))
    | .ends r => .ends (r.bind fun _ => .ub)

/-- log.c:406-411: the search by name (`LocaleCompare` with NULL is not 0). -/
def findLog (fold : Byte → Byte) (name : List Byte) : List LogEntry → Res (Option LogEntry)
  | [] => .ok none
  | e :: es => do
    let r ← localeCompare fold (some name) e.name
    if r = 0 then .ok (some e) else findLog fold name es

/-- log.c:386-420 `GetLogInfo`: the entry and the order of the cache after it; not found: `ThrowWizardException` (exception.c:1021) logs
first, with the semaphore held. -/
def getLogInfo (fold : Byte → Byte) (name : Option (List Byte)) (cache : List LogEntry) : LogOutcome (Option LogEntry × List LogEntry) :=
  if name = none ∨ name = some (ascText "*") then .ends (.ok (cache.head?, cache))
  else
    match findLog fold (name.getD []) cache with
    | .ok (some e) => .ends (.ok (some e, e :: cache.erase e))
    | .ok none =>
      match isEventLogging true cache with
      | .waits => .waits
      | .ends r => .ends (r.bind fun _ => .ok (none, cache))
    | r => .ends (r.bind fun _ => .ub)

/-- log.c:502-508 and 595-601: which entries `GetLogInfoList` and `GetLogList` take.  token.c:269-281 `GlobExpression`: an empty pattern and
`*` match at once, otherwise the name is looked at (NULL: a crash); `glob` is what it says of a name (C10). -/
def listLogs (glob : List Byte → List Byte → Bool) (pattern : List Byte) : List LogEntry → Res (List LogEntry)
  | [] => .ok []
  | e :: es => do
    let m ← (if e.stealth then .ok false
      else if pattern = [] ∨ pattern = ascText "*" then .ok true
      else match e.name with
        | none => .ub
        | some n => .ok (glob n pattern))
    let r ← listLogs glob pattern es
    .ok (if m then e :: r else r)

/-- log.c:1731-1753 `SetLogEventMask`: the returned mask and the cache; `option` is the result of `ParseWizardOption` (C51). -/
def setLogEventMask (option : Int) : List LogEntry → Res (Nat × List LogEntry)
  | [] => .ub
  | e :: es =>
    let mask := if option = -1 then 0 else (option % 2 ^ 64).toNat
    .ok (mask, { e with eventMask := mask } :: es)

end Wizard

import Verif.Model.Option
import Verif.Model.Xml
/-! log.c: the text of a log event and the name of a log file.  Texts are without their NUL; blocks of memory are lists of bytes. -/
namespace Wizard

/-- What a format can speak of.  Numbers and times come as `FormatLocaleString` would print them. -/
structure LogFields where
  client : List Byte
  domain : List Byte
  event : List Byte
  function : List Byte
  generation : List Byte
  thread : List Byte
  line : List Byte
  module : List Byte
  name : List Byte
  process : List Byte
  elapsed : List Byte
  time : List Byte
  user : List Byte
  version : List Byte

/-- The block, `q` as an offset, and `extent`. -/
structure LogBuffer where
  mem : List Byte
  q : Nat
  extent : Nat

/-- How a piece of text gets into the buffer: `CopyWizardString(q,…,extent)`, `FormatLocaleString(q,extent,…)`, or byte by byte. -/
inductive LogPiece where
  | copy (s : List Byte)
  | format (s : List Byte)
  | bytes (s : List Byte)

/-- `*q++=c`. -/
def LogBuffer.push (b : LogBuffer) (c : Byte) : Res LogBuffer := do
  let m ← wr b.mem b.q c
  .ok { b with mem := m, q := b.q + 1 }

def LogBuffer.pushAll (b : LogBuffer) : List Byte → Res LogBuffer
  | [] => .ok b
  | c :: cs => do
    let b ← b.push c
    b.pushAll cs

/-- `q+=CopyWizardString(q,s,extent)` and `q+=FormatLocaleString(q,extent,…)` (locale.c:434-466: `vsnprintf`, which returns the length of
the whole text). -/
def LogBuffer.put (b : LogBuffer) : LogPiece → Res LogBuffer
  | .copy s => do
    let (m, n) ← copyWizardString (b.mem.drop b.q) (s ++ [0]) b.extent
    .ok { b with mem := b.mem.take b.q ++ m, q := b.q + n }
  | .format s => do
    let m ← wrN b.mem b.q (s.take (b.extent - 1) ++ [0])
    .ok { b with mem := m, q := b.q + s.length }
  | .bytes s => b.pushAll s

/-- log.c:998-1007 and 1186-1195: end the text and make room. -/
def LogBuffer.grow (junk : Nat → Byte) (b : LogBuffer) : Res LogBuffer := do
  let m ← wr b.mem b.q 0
  if b.q + wizardPathExtent ≥ b.extent then
    let e := b.extent + wizardPathExtent
    let m := reallocMem m (e + wizardPathExtent) junk
    .ok ⟨m, (textOf m).length, e⟩
  else .ok { b with mem := m }

/-- log.c:1101-1109: the last component of the name of the source file.  `i` is `p-module`. -/
def moduleFrom (module : List Byte) : Nat → List Byte
  | 0 => module
  | i + 1 => if module[i + 1]? = some (asc '/') then module.drop (i + 2) else moduleFrom module i

def moduleTail (module : List Byte) : Res (List Byte) :=
  if module = [] then .ub else .ok (moduleFrom module (module.length - 1))

/-- log.c:1049-1156: what follows a percent sign in a format. -/
def eventDirective (f : LogFields) (c : Byte) : Res LogPiece :=
  if c = asc 'c' then .ok (.copy f.client)
  else if c = asc 'd' then .ok (.copy f.domain)
  else if c = asc 'e' then .ok (.copy f.event)
  else if c = asc 'f' then .ok (.copy f.function)
  else if c = asc 'g' then .ok (.format f.generation)
  else if c = asc 'i' then .ok (.format f.thread)
  else if c = asc 'l' then .ok (.format f.line)
  else if c = asc 'm' then do
    let m ← moduleTail f.module
    .ok (.copy m)
  else if c = asc 'n' then .ok (.copy f.name)
  else if c = asc 'p' then .ok (.format f.process)
  else if c = asc 'r' then .ok (.format f.elapsed)
  else if c = asc 't' then .ok (.format f.time)
  else if c = asc 'u' then .ok (.format f.user)
  else if c = asc 'v' then .ok (.copy f.version)
  else if c = asc '%' then .ok (.bytes [c])
  else .ok (.bytes [asc '%', c])

/-- log.c:1214-1259: what follows a percent sign in a filename. -/
def nameDirective (f : LogFields) (c : Byte) : Res LogPiece :=
  if c = asc 'c' then .ok (.copy f.client)
  else if c = asc 'g' then .ok (.format f.generation)
  else if c = asc 'n' then .ok (.copy f.name)
  else if c = asc 'p' then .ok (.format f.process)
  else if c = asc 'v' then .ok (.copy f.version)
  else if c = asc '%' then .ok (.bytes [c])
  else .ok (.bytes [asc '%', c])

/-- log.c:996-1157 (`escapes`) and 1184-1260: the loop over the format.  A percent sign at the end ends it. -/
def logLoop (junk : Nat → Byte) (escapes : Bool) (directive : Byte → Res LogPiece) : List Byte → LogBuffer → Res LogBuffer
  | [], b => .ok b
  | [c], b => do
    let b ← b.grow junk
    if c ≠ asc '%' then b.push c else .ok b
  | c :: d :: p, b => do
    let b ← b.grow junk
    if escapes = true ∧ c = asc '\\' ∧ d = asc 'r' then do
      let b ← b.push 13
      logLoop junk escapes directive p b
    else if escapes = true ∧ c = asc '\\' ∧ d = asc 'n' then do
      let b ← b.push 10
      logLoop junk escapes directive p b
    else if c ≠ asc '%' then do
      let b ← b.push c
      logLoop junk escapes directive (d :: p) b
    else do
      let x ← directive d
      let b ← b.put x
      logLoop junk escapes directive p b

/-- string.c:133-155 `AcquireString`. -/
def acquireString (junk : Nat → Byte) (s : List Byte) : List Byte := s ++ 0 :: (List.range (wizardPathExtent - 1)).map junk

/-- log.c:973-989: the entry of the XML format. -/
def xmlEntry (f : LogFields) : List Byte :=
  ascText "<entry>\n  <timestamp>" ++ f.time ++ ascText "</timestamp>\n  <elapsed-time>" ++ f.elapsed ++
  ascText "</elapsed-time>\n  <user-time>" ++ f.user ++ ascText "</user-time>\n  <process-id>" ++ f.process ++
  ascText "</process-id>\n  <thread-id>" ++ f.thread ++ ascText "</thread-id>\n  <module>" ++ f.module ++
  ascText "</module>\n  <function>" ++ f.function ++ ascText "</function>\n  <line>" ++ f.line ++
  ascText "</line>\n  <domain>" ++ f.domain ++ ascText "</domain>\n  <event>" ++ f.event ++ ascText "</event>\n</entry>"

/-- log.c:926-1160 `TranslateEvent`, with the format of the log (NULL: `none`).  `isXml`: the comparison of line 965. -/
def translateEvent (junk : Nat → Byte) (isXml : List Byte → Bool) (format : Option (List Byte)) (f : LogFields) : Res (List Byte) :=
  let text := acquireString junk f.event
  let extent := f.event.length + wizardPathExtent
  match format with
  | none => .ok (textOf text)
  | some p =>
    if isXml p then do
      let m ← wrN text 0 ((xmlEntry f).take (extent - 1) ++ [0])
      .ok (textOf m)
    else do
      let b ← logLoop junk true (eventDirective f) p ⟨text, 0, extent⟩
      let m ← wr b.mem b.q 0
      .ok (textOf m)

/-- log.c:1162-1263 `TranslateFilename`. -/
def translateFilename (junk : Nat → Byte) (filename : Option (List Byte)) (f : LogFields) : Res (List Byte) :=
  match filename with
  | none => .ub
  | some p => do
    let b ← logLoop junk false (nameDirective f) p ⟨acquireString junk [], 0, wizardPathExtent⟩
    let m ← wr b.mem b.q 0
    .ok (textOf m)

end Wizard

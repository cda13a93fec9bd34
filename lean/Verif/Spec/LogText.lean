import Verif.Model.LogText
/-! What the comments of log.c and config/log.xml say about formats and filenames of logs. -/
namespace Wizard.Spec.Log
open Wizard

/-- The name of a source file without its directories (a separator in first place does not count). -/
def baseName (s : List Byte) : List Byte := if asc '/' ∈ s.tail then (s.reverse.takeWhile (· ≠ asc '/')).reverse else s

/-- The letters of log.c:1011-1025. -/
def eventLetters (f : LogFields) : List (Char × List Byte) :=
  [('c', f.client), ('d', f.domain), ('e', f.event), ('f', f.function), ('g', f.generation), ('i', f.thread), ('l', f.line),
   ('m', baseName f.module), ('n', f.name), ('p', f.process), ('r', f.elapsed), ('t', f.time), ('u', f.user), ('v', f.version),
   ('%', [asc '%'])]

/-- The letters of log.c:1200-1204, and the generation. -/
def nameLetters (f : LogFields) : List (Char × List Byte) :=
  [('c', f.client), ('g', f.generation), ('n', f.name), ('p', f.process), ('v', f.version), ('%', [asc '%'])]

/-- What a percent sign and the byte behind it stand for: what the table says, otherwise themselves. -/
def means (letters : List (Char × List Byte)) (d : Byte) : List Byte :=
  match letters.find? (fun l => asc l.1 == d) with
  | some l => l.2
  | none => [asc '%', d]

/-- What a format stands for.  `escapes`: `\n` and `\r` are line ends.  A percent sign at the end stands for nothing. -/
def expand (escapes : Bool) (mean : Byte → List Byte) : List Byte → List Byte
  | [] => []
  | [c] => if c = asc '%' then [] else [c]
  | c :: d :: p =>
    if escapes = true ∧ c = asc '\\' ∧ d = asc 'r' then 13 :: expand escapes mean p
    else if escapes = true ∧ c = asc '\\' ∧ d = asc 'n' then 10 :: expand escapes mean p
    else if c = asc '%' then mean d ++ expand escapes mean p
    else c :: expand escapes mean (d :: p)

/-- The elements of an entry in the XML format. -/
def entryElements (f : LogFields) : List (String × List Byte) :=
  [("timestamp", f.time), ("elapsed-time", f.elapsed), ("user-time", f.user), ("process-id", f.process), ("thread-id", f.thread),
   ("module", f.module), ("function", f.function), ("line", f.line), ("domain", f.domain), ("event", f.event)]

/-- The entry in the XML format: each element on a line of its own. -/
def entry (f : LogFields) : List Byte :=
  ascText "<entry>\n" ++ (entryElements f).flatMap (fun e => ascText "  <" ++ ascText e.1 ++ ascText ">" ++ e.2 ++ ascText "</" ++ ascText e.1 ++ ascText ">\n") ++
    ascText "</entry>"

/-- Texts, each of which fits into a path. -/
def Short (f : LogFields) : Prop :=
  ∀ s ∈ [f.client, f.domain, f.event, f.function, f.generation, f.thread, f.line, f.module, f.name, f.process, f.elapsed, f.time, f.user, f.version],
    (0 : Byte) ∉ s ∧ s.length < 4096

end Wizard.Spec.Log

import Verif.Model.Mime
/-! What it means that a file is of a MIME type, and what magic numbers stand for. -/
namespace Wizard.Spec.Mime
open Wizard

/-- The number `size` bytes are, the most significant first. -/
def big (bytes : List Byte) : Nat := bytes.foldl (fun a b => 256 * a + b.toNat) 0

/-- The least significant first. -/
def little : List Byte → Nat
  | [] => 0
  | b :: bs => b.toNat + 256 * little bs

/-- The bytes of the content from `offset` on, if it has so many. -/
def slice (content : List Byte) (offset size : Nat) : Option (List Byte) :=
  if offset + size ≤ content.length then some ((content.drop offset).take size) else none

/-- A rule about a number: the number, under the mask, is the value. -/
def NumberRule (host : Bool) (p : MimeInfo) (size : Nat) (content : List Byte) : Prop :=
  ∃ bytes v, slice content p.offset.toNat size = some bytes ∧
    v = (if p.endian = .lsb ∨ (p.endian = .undefined ∧ host = true) then little bytes else big bytes) ∧
    (if p.mask = 0 then BitVec.ofNat 64 v = p.value else BitVec.ofNat 64 v &&& p.mask = p.value)

/-- A rule about a text: it is at the offset, or at most `extent` further.  A rule without a text says nothing. -/
def TextRule (p : MimeInfo) (content : List Byte) : Prop :=
  p.magic ≠ [] ∧ ∃ i, i ≤ p.extent ∧ slice content (p.offset.toNat + i) p.magic.length = some p.magic

/-- The rule of a type. -/
def Rule (host : Bool) (p : MimeInfo) (content : List Byte) : Prop :=
  match p.data with
  | .byte => NumberRule host p 1 content
  | .short => NumberRule host p 2 content
  | .long => NumberRule host p 4 content
  | _ => TextRule p content

/-- The file is of the type: by its name, if there is one and the type has a pattern, or else by its content. -/
def Is (host : Bool) (glob : List Byte → List Byte → Bool) (filename : Option (List Byte)) (content : List Byte) (p : MimeInfo) : Prop :=
  match p.pattern, filename with
  | some pattern, some name => glob name pattern = true
  | _, _ => Rule host p content

/-- The best of the types the file is of: the last of those of the least priority. -/
def Best (is : MimeInfo → Prop) (cache : List MimeInfo) : Option MimeInfo → Prop
  | none => ∀ q ∈ cache, ¬ is q
  | some p => ∃ before after, cache = before ++ p :: after ∧ is p ∧ (∀ q ∈ before, is q → p.priority ≤ q.priority) ∧ (∀ q ∈ after, is q → p.priority < q.priority)

/-- Magic numbers in C's notation: `\` and three octal digits. -/
def octal (b : Byte) : List Byte :=
  [asc '\\', BitVec.ofNat 8 (48 + b.toNat / 64), BitVec.ofNat 8 (48 + b.toNat / 8 % 8), BitVec.ofNat 8 (48 + b.toNat % 8)]

end Wizard.Spec.Mime

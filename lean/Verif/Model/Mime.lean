import Verif.Model.Basic
/-! mime.c: the lookup of MIME types and the reading of magic numbers. -/
namespace Wizard

/-- magic numbers: mime.h `DataType`. -/
inductive MimeData where
  | undefined | byte | long | short | string
  deriving DecidableEq, Repr

inductive MimeEndian where
  | undefined | lsb | msb
  deriving DecidableEq, Repr

/-- mime.c:66-104 `MimeInfo` (what the lookup reads; a missing magic number is empty). -/
structure MimeInfo where
  type : List Byte := []
  pattern : Option (List Byte) := none
  priority : Int := 0
  offset : Int := 0
  extent : Nat := 0
  data : MimeData := .undefined
  mask : BitVec 64 := 0
  value : BitVec 64 := 0
  endian : MimeEndian := .undefined
  magic : List Byte := []
  deriving DecidableEq

/-- mime.c:287-288, 305-318, 335-352: `size` bytes from `offset` as a number; `little`: the bytes are in little-endian order. -/
def mimeValue (little : Bool) (size : Nat) (offset : Nat) (content : List Byte) : BitVec 64 :=
  let bytes := (content.drop offset).take size
  (if little then bytes.reverse else bytes).foldl (fun v b => v <<< 8 ||| b.setWidth 64) 0

/-- mime.c:289-298, 319-328, 353-362. -/
def mimeEqual (p : MimeInfo) (value : BitVec 64) : Bool :=
  if p.mask = 0 then p.value == value else (p.value &&& p.mask) == value

/-- mime.c:307-309, 337-339. `host`: the machine is little-endian. -/
def mimeLittle (host : Bool) (p : MimeInfo) : Bool :=
  match p.endian with
  | .undefined => host
  | .lsb => true
  | .msb => false

/-- mime.c:368-377: `n` more places to try, `i` the next. -/
def mimeSearch (magic content : List Byte) (offset : Nat) : Nat → Nat → Bool
  | 0, _ => false
  | n + 1, i =>
    if offset + i + magic.length > content.length then false
    else if (content.drop (offset + i)).take magic.length = magic then true
    else mimeSearch magic content offset n (i + 1)

/-- mime.c:281-380: whether the content is of type `p`.  Offsets near the largest number, for which `offset+4` overflows, are left out. -/
def mimeContent (host : Bool) (p : MimeInfo) (content : List Byte) : Bool :=
  let offset := p.offset.toNat
  match p.data with
  | .byte => if offset + 4 > content.length then false else mimeEqual p (mimeValue true 1 offset content)
  | .short => if offset + 4 > content.length then false else mimeEqual p (mimeValue (mimeLittle host p) 2 offset content)
  | .long => if offset + 4 > content.length then false else mimeEqual p (mimeValue (mimeLittle host p) 4 offset content)
  | _ => mimeSearch p.magic content offset (p.extent + 1) 0

/-- mime.c:265-382: the search. `glob` is `GlobExpression`. -/
def mimeScan (host : Bool) (glob : List Byte → List Byte → Bool) (filename : Option (List Byte)) (content : List Byte) :
    Option MimeInfo → List MimeInfo → Res (Option MimeInfo)
  | found, [] => .ok found
  | found, p :: ps =>
    if p.offset < 0 then .ub
    else if found.any (fun f => p.priority > f.priority) then mimeScan host glob filename content found ps
    else match p.pattern, filename with
      | some pattern, some name => mimeScan host glob filename content (if glob name pattern then some p else found) ps
      | _, _ => mimeScan host glob filename content (if mimeContent host p content then some p else found) ps

/-- mime.c:225-388 `GetMimeInfo` over a loaded cache, whose order does not change (383-385 insert nothing: `p` is NULL). -/
def getMimeInfo (host : Bool) (glob : List Byte → List Byte → Bool) (cache : List MimeInfo) (filename : Option (List Byte)) (content : List Byte) :
    Res (Option MimeInfo) :=
  if content.length = 0 then .ok cache.head? else mimeScan host glob filename content none cache

/-- mime.c:914-925. -/
def mimeEscape (c : Byte) : Byte :=
  if c = asc 'b' then 8 else if c = asc 'f' then 12 else if c = asc 'n' then 10 else if c = asc 'r' then 13 else if c = asc 't' then 9
  else if c = asc 'v' then 11 else if c = asc 'a' then asc 'a' else c

def isOctal (c : Byte) : Bool := 48 ≤ c.toNat && c.toNat ≤ 55

/-- `strtol(p,&end,8)` of a text that begins with a digit, as a byte (no more digits than a `long` holds). -/
def octalByte (digits : List Byte) : Byte := BitVec.ofNat 8 (digits.foldl (fun a c => 8 * a + (c.toNat - 48)) 0)

/-- mime.c:899-933: the bytes of a magic number.  A backslash at the end makes `p` pass the end of the text. -/
def mimeMagic : List Byte → Res (List Byte)
  | [] => .ok []
  | c :: cs =>
    if c = asc '\\' then
      match cs with
      | [] => .ub
      | d :: ds =>
        if 48 ≤ d.toNat ∧ d.toNat ≤ 57 then
          match mimeMagic ((d :: ds).dropWhile isOctal) with
          | .ok r => .ok (octalByte ((d :: ds).takeWhile isOctal) :: r)
          | e => e
        else
          match mimeMagic ds with
          | .ok r => .ok (mimeEscape d :: r)
          | e => e
    else
      match mimeMagic cs with
      | .ok r => .ok (c :: r)
      | e => e
termination_by l => l.length
decreasing_by
  · have : ((d :: ds).dropWhile isOctal).length ≤ (d :: ds).length := (List.dropWhile_suffix _).length_le
    simp only [List.length_cons] at *; omega
  · simp only [List.length_cons]; omega
  · simp only [List.length_cons]; omega

end Wizard

import Verif.Model.StringOps
/-! option.c: the tables of mnemonics and the functions on them. -/
namespace Wizard

/-- option.h:28-35 `struct _OptionInfo`. -/
structure OptionInfo where
  mnemonic : List Byte
  type : BitVec 64
  deriving DecidableEq

/-- An entry of a table: its characters and its value. -/
def opt (s : List Char) (t : Nat) : OptionInfo := ⟨s.map asc, BitVec.ofNat 64 t⟩

/-- option.c:58-64 `AuthenticateOptions`. -/
def authenticateOptions : List OptionInfo :=
  [opt ['U', 'n', 'd', 'e', 'f', 'i', 'n', 'e', 'd'] 0,
   opt ['P', 'u', 'b', 'l', 'i', 'c'] 2,
   opt ['S', 'e', 'c', 'r', 'e', 't'] 1]

/-- option.c:65-74 `CipherOptions`. -/
def cipherOptions : List OptionInfo :=
  [opt ['U', 'n', 'd', 'e', 'f', 'i', 'n', 'e', 'd'] 0,
   opt ['A', 'E', 'S'] 2,
   opt ['C', 'h', 'a', 'c', 'h', 'a'] 3,
   opt ['N', 'o', 'n', 'e'] 1,
   opt ['S', 'e', 'r', 'p', 'e', 'n', 't'] 4,
   opt ['T', 'w', 'o', 'f', 'i', 's', 'h'] 5]

/-- option.c:75-114 `CommandOptions`. -/
def commandOptions : List OptionInfo :=
  [opt ['+', 'a', 'u', 't', 'h', 'e', 'n', 't', 'i', 'c', 'a', 't', 'e'] 1,
   opt ['-', 'a', 'u', 't', 'h', 'e', 'n', 't', 'i', 'c', 'a', 't', 'e'] 1,
   opt ['+', 'c', 'h', 'u', 'n', 'k', 's', 'i', 'z', 'e'] 1,
   opt ['-', 'c', 'h', 'u', 'n', 'k', 's', 'i', 'z', 'e'] 1,
   opt ['+', 'd', 'e', 'c', 'i', 'p', 'h', 'e', 'r'] 0,
   opt ['-', 'd', 'e', 'c', 'i', 'p', 'h', 'e', 'r'] 0,
   opt ['+', 'd', 'e', 'b', 'u', 'g'] 1,
   opt ['-', 'd', 'e', 'b', 'u', 'g'] 1,
   opt ['+', 'e', 'n', 't', 'r', 'o', 'p', 'y'] 1,
   opt ['-', 'e', 'n', 't', 'r', 'o', 'p', 'y'] 1,
   opt ['+', 'h', 'a', 's', 'h'] 1,
   opt ['-', 'h', 'a', 's', 'h'] 1,
   opt ['+', 'h', 'e', 'l', 'p'] 0,
   opt ['-', 'h', 'e', 'l', 'p'] 0,
   opt ['+', 'k', 'e', 'y'] 1,
   opt ['-', 'k', 'e', 'y'] 1,
   opt ['+', 'k', 'e', 'y', '-', 'l', 'e', 'n', 'g', 't', 'h'] 1,
   opt ['-', 'k', 'e', 'y', '-', 'l', 'e', 'n', 'g', 't', 'h'] 1,
   opt ['+', 'm', 'a', 'c'] 1,
   opt ['-', 'm', 'a', 'c'] 1,
   opt ['+', 'l', 'e', 'v', 'e', 'l'] 1,
   opt ['-', 'l', 'e', 'v', 'e', 'l'] 1,
   opt ['+', 'l', 'i', 's', 't'] 1,
   opt ['-', 'l', 'i', 's', 't'] 1,
   opt ['+', 'l', 'o', 'g'] 1,
   opt ['-', 'l', 'o', 'g'] 1,
   opt ['+', 'm', 'o', 'd', 'e'] 1,
   opt ['-', 'm', 'o', 'd', 'e'] 1,
   opt ['+', 'p', 'r', 'o', 'p', 'e', 'r', 't', 'i', 'e', 's'] 1,
   opt ['-', 'p', 'r', 'o', 'p', 'e', 'r', 't', 'i', 'e', 's'] 1,
   opt ['+', 'r', 'a', 'n', 'd', 'o', 'm'] 1,
   opt ['-', 'r', 'a', 'n', 'd', 'o', 'm'] 1,
   opt ['+', 'v', 'e', 'r', 'b', 'o', 's', 'e'] 0,
   opt ['-', 'v', 'e', 'r', 'b', 'o', 's', 'e'] 0,
   opt ['+', 'v', 'e', 'r', 's', 'i', 'o', 'n'] 1,
   opt ['-', 'v', 'e', 'r', 's', 'i', 'o', 'n'] 1]

/-- option.c:115-123 `DataTypeOptions`. -/
def dataTypeOptions : List OptionInfo :=
  [opt ['U', 'n', 'd', 'e', 'f', 'i', 'n', 'e', 'd'] 0,
   opt ['B', 'y', 't', 'e'] 2,
   opt ['L', 'o', 'n', 'g'] 4,
   opt ['S', 'h', 'o', 'r', 't'] 3,
   opt ['S', 't', 'r', 'i', 'n', 'g'] 1]

/-- option.c:124-130 `EndianOptions`. -/
def endianOptions : List OptionInfo :=
  [opt ['U', 'n', 'd', 'e', 'f', 'i', 'n', 'e', 'd'] 0,
   opt ['L', 'S', 'B'] 1,
   opt ['M', 'S', 'B'] 2]

/-- option.c:131-144 `EntropyLevelOptions`. -/
def entropyLevelOptions : List OptionInfo :=
  [opt ['0'] 0,
   opt ['1'] 1,
   opt ['2'] 2,
   opt ['3'] 3,
   opt ['4'] 4,
   opt ['5'] 5,
   opt ['6'] 6,
   opt ['7'] 7,
   opt ['8'] 8,
   opt ['9'] 9]

/-- option.c:145-153 `EntropyOptions`. -/
def entropyOptions : List OptionInfo :=
  [opt ['U', 'n', 'd', 'e', 'f', 'i', 'n', 'e', 'd'] 0,
   opt ['N', 'o', 'n', 'e'] 1,
   opt ['B', 'Z', 'i', 'p'] 3,
   opt ['L', 'Z', 'M', 'A'] 4,
   opt ['Z', 'i', 'p'] 2]

/-- option.c:154-161 `KeyLengthOptions`. -/
def keyLengthOptions : List OptionInfo :=
  [opt ['2', '5', '6'] 256,
   opt ['5', '1', '2'] 512,
   opt ['1', '0', '2', '4'] 1024,
   opt ['2', '0', '4', '8'] 2048]

/-- option.c:162-184 `HashOptions`. -/
def hashOptions : List OptionInfo :=
  [opt ['U', 'n', 'd', 'e', 'f', 'i', 'n', 'e', 'd'] 0,
   opt ['C', 'R', 'C', '6', '4'] 2,
   opt ['M', 'D', '5'] 3,
   opt ['N', 'o', 'n', 'e'] 1,
   opt ['S', 'H', 'A', '1'] 4,
   opt ['S', 'H', 'A', '2', '2', '4'] 6,
   opt ['S', 'H', 'A', '2', '5', '6'] 7,
   opt ['S', 'H', 'A', '3', '8', '4'] 8,
   opt ['S', 'H', 'A', '5', '1', '2'] 9,
   opt ['S', 'H', 'A', '2'] 5,
   opt ['S', 'H', 'A', '2', '-', '2', '2', '4'] 6,
   opt ['S', 'H', 'A', '2', '-', '2', '5', '6'] 7,
   opt ['S', 'H', 'A', '2', '-', '3', '8', '4'] 8,
   opt ['S', 'H', 'A', '2', '-', '5', '1', '2'] 9,
   opt ['S', 'H', 'A', '3'] 10,
   opt ['S', 'H', 'A', '3', '-', '2', '2', '4'] 11,
   opt ['S', 'H', 'A', '3', '-', '2', '5', '6'] 12,
   opt ['S', 'H', 'A', '3', '-', '3', '8', '4'] 13,
   opt ['S', 'H', 'A', '3', '-', '5', '1', '2'] 14]

/-- option.c:185-200 `ListOptions`. -/
def listOptions : List OptionInfo :=
  [opt ['A', 'u', 't', 'h', 'e', 'n', 't', 'i', 'c', 'a', 't', 'e'] 0,
   opt ['C', 'i', 'p', 'h', 'e', 'r'] 1,
   opt ['C', 'o', 'm', 'm', 'a', 'n', 'd'] 2,
   opt ['D', 'a', 't', 'a', 'T', 'y', 'p', 'e'] 3,
   opt ['D', 'e', 'b', 'u', 'g'] 4,
   opt ['E', 'n', 'd', 'i', 'a', 'n'] 5,
   opt ['E', 'n', 't', 'r', 'o', 'p', 'y'] 6,
   opt ['E', 'n', 't', 'r', 'o', 'p', 'y', 'L', 'e', 'v', 'e', 'l'] 7,
   opt ['H', 'a', 's', 'h'] 9,
   opt ['K', 'e', 'y', 'L', 'e', 'n', 'g', 't', 'h'] 8,
   opt ['L', 'i', 's', 't'] 10,
   opt ['M', 'o', 'd', 'e'] 11]

/-- option.c:201-215 `LogWizardEventOptions`. -/
def logWizardEventOptions : List OptionInfo :=
  [opt ['A', 'l', 'l'] 2147483646,
   opt ['B', 'l', 'o', 'b'] 4,
   opt ['D', 'e', 'p', 'r', 'e', 'c', 'a', 't', 'e'] 64,
   opt ['C', 'o', 'n', 'f', 'i', 'g', 'u', 'r', 'e'] 32,
   opt ['E', 'x', 'c', 'e', 'p', 't', 'i', 'o', 'n'] 128,
   opt ['L', 'o', 'c', 'a', 'l', 'e'] 256,
   opt ['N', 'o', 'n', 'e'] 0,
   opt ['R', 'e', 's', 'o', 'u', 'r', 'c', 'e'] 1024,
   opt ['T', 'r', 'a', 'c', 'e'] 1,
   opt ['U', 's', 'e', 'r'] 8192,
   opt ['W', 'a', 'r', 'n', 'i', 'n', 'g'] 4096]

/-- option.c:216-225 `ModeOptions`. -/
def modeOptions : List OptionInfo :=
  [opt ['U', 'n', 'd', 'e', 'f', 'i', 'n', 'e', 'd'] 0,
   opt ['C', 'B', 'C'] 1,
   opt ['C', 'F', 'B'] 2,
   opt ['C', 'T', 'R'] 3,
   opt ['E', 'C', 'B'] 4,
   opt ['O', 'F', 'B'] 5]

/-- option.c:226-235 `ResourceOptions`. -/
def resourceOptions : List OptionInfo :=
  [opt ['U', 'n', 'd', 'e', 'f', 'i', 'n', 'e', 'd'] 0,
   opt ['A', 'r', 'e', 'a'] 1,
   opt ['D', 'i', 's', 'k'] 2,
   opt ['F', 'i', 'l', 'e'] 3,
   opt ['M', 'a', 'p'] 4,
   opt ['M', 'e', 'm', 'o', 'r', 'y'] 5]


/-- `isspace` in the "C" locale. -/
def isSpaceC (c : Byte) : Bool := c == 0x20 || (decide (0x09 ≤ c) && decide (c ≤ 0x0d))

/-- option.c:469-479 and 488-496: the first entry that equals the token, letter case aside. -/
def lookupOption (fold : Byte → Byte) (token : List Byte) : List OptionInfo → Res (Option OptionInfo)
  | [] => .ok none
  | o :: os => do
    let r ← localeCompare fold (some token) (some o.mnemonic)
    if r = 0 then .ok (some o) else lookupOption fold token os

/-- `strchr` on string memory for a byte other than NUL. -/
def strchrMem (c : Byte) : List Byte → Res (Option Nat)
  | [] => .ub
  | d :: p => if d = c then .ok (some 0) else if d = 0 then .ok none else do
    let r ← strchrMem c p
    .ok (r.map (· + 1))

/-- The bytes before the NUL. -/
def textOf (buf : List Byte) : List Byte := buf.takeWhile (· != 0)

/-- option.c:56 `WizardPathExtent` (studio.h): 4096. -/
def pathExtent : Nat := 4096

/-- option.c:484-485 and 486-487: remove a character from the token, not looking at its first byte.  The copy moves bytes down
by one, so every byte is read before it is overwritten. -/
def removeChar (c : Byte) : Nat → List Byte → Res (List Byte)
  | 0, _ => .fatal
  | fuel + 1, buf => do
    match ← strchrMem c (buf.drop 1) with
    | none => .ok buf
    | some i => do
      let n ← strlenMem (buf.drop (i + 1))
      let r ← copyWizardString (buf.drop (i + 1)) (buf.drop (i + 2)) (pathExtent - n)
      removeChar c fuel (buf.take (i + 1) ++ r.1)

/-- option.c:473-476 and 491-494. -/
def applyOption (token : List Byte) (acc : BitVec 64) (o : OptionInfo) : BitVec 64 :=
  if token.head? = some (asc '!') then acc &&& ~~~ o.type else acc ||| o.type

/-- option.c:481: `(strchr(token+1,'-') != NULL) || (strchr(token+1,'_') != NULL)`. -/
def hasDash (buf : List Byte) : Res Bool := do
  match ← strchrMem (asc '-') (buf.drop 1) with
  | some _ => .ok true
  | none => do
    let u ← strchrMem (asc '_') (buf.drop 1)
    .ok u.isSome

/-- option.c:480-497: the second attempt, without dashes and underscores. -/
def secondAttempt (fold : Byte → Byte) (table : List OptionInfo) (acc : BitVec 64) (buf : List Byte) :
    Res (Option (BitVec 64) × List Byte) := do
  if ← hasDash buf then do
    let buf ← removeChar (asc '-') (buf.length + 1) buf
    let buf ← removeChar (asc '_') (buf.length + 1) buf
    let o ← lookupOption fold (textOf buf) table
    .ok (o.map (applyOption (textOf buf) acc), buf)
  else .ok (none, buf)

/-- option.c:469-497: find the token in the table. -/
def findToken (fold : Byte → Byte) (table : List OptionInfo) (acc : BitVec 64) (token buf : List Byte) :
    Res (Option (BitVec 64) × List Byte) := do
  match ← lookupOption fold token table with
  | some o => .ok (some (applyOption token acc o), buf)
  | none => secondAttempt fold table acc buf

/-- option.c:455-456 and 457-459: skip a sign, then an exclamation mark (what it says is not used). -/
def skipSign : List Byte → List Byte
  | c :: p => if c = asc '-' ∨ c = asc '+' then p else c :: p
  | [] => []

/-- option.c:457-459. -/
def skipBang : List Byte → List Byte
  | c :: p => if c = asc '!' then p else c :: p
  | [] => []

/-- option.c:450-502: the loop over the list; `p` is the rest of the text, `buf` the memory of `token`.  `none` is the return value
-1. -/
def parseLoop (fold : Byte → Byte) (table : List OptionInfo) (list : Bool) : Nat → List Byte → BitVec 64 → List Byte → Res (Option (BitVec 64))
  | 0, _, _, _ => .fatal
  | fuel + 1, p, acc, buf => do
    let p := skipBang (skipSign (p.dropWhile (fun c => isSpaceC c || c == asc ',')))
    let token := (p.takeWhile (fun c => !isSpaceC c && c != asc ',')).take (pathExtent - 1)
    let p := p.drop token.length
    let buf := token ++ 0 :: buf.drop (token.length + 1)
    match ← findToken fold table acc token buf with
    | (none, _) => .ok none
    | (some acc, buf) =>
      if list = false then .ok (some acc)
      else match p.dropWhile (· != asc ',') with
        | [] => .ok (some acc)
        | p => parseLoop fold table list fuel p acc buf

/-- option.c:422-504 `ParseWizardOption` for a table; `junk` is the uninitialised memory of `token`. -/
def parseOption (fold : Byte → Byte) (table : List OptionInfo) (list : Bool) (junk options : List Byte) : Res (Option (BitVec 64)) :=
  parseLoop fold table list (options.length + 1) options 0 junk

/-- option.c:531-549 `WizardOptionToMnemonic` for a table. -/
def optionToMnemonic (table : List OptionInfo) (type : BitVec 64) : List Byte :=
  match table.find? (fun o => o.type == type) with
  | some o => o.mnemonic
  | none => ['u', 'n', 'd', 'e', 'f', 'i', 'n', 'e', 'd'].map asc

/-- `isalpha` in the "C" locale. -/
def isAlphaC (c : Byte) : Bool := (decide (asc 'A' ≤ c) && decide (c ≤ asc 'Z')) || (decide (asc 'a' ≤ c) && decide (c ≤ asc 'z'))

/-- option.c:330-341 `IsWizardOption`. -/
def isWizardOption : List Byte → Bool
  | c :: d :: _ => (c == asc '-' || c == asc '+') && isAlphaC d
  | _ => false

end Wizard

import Verif.Model.Packet
/-! The command line of `encipher` (utilities/encipher.c). -/
namespace Wizard

/-- What is outside the command line: uninitialised memory, numbers (`StringToDouble` and `StringToDoubleInterval`, string.c, without their fractions; `none` if there is no number) and the
names of events (`SetLogEventMask`). -/
structure CommandEnv where
  junk : List Byte
  number : List Byte → Option Int
  events : List Byte → Bool

/-- encipher.c:168-185: the variables of `EncipherCommand`. -/
structure CommandState where
  settings : Settings
  keyring : Option (List Byte)
  passphrase : Option (List Byte)
  properties : Option (List Byte)
  plain : Option (List Byte)
  cipherName : Option (List Byte)
  compress : Bool
  verbose : Bool
  trueRandom : Bool
  deriving DecidableEq

/-- content.c:69-97 `AcquireContentInfo` and encipher.c:209-212; the nonce and the id are not there yet. -/
def commandStart (version : List Byte) : CommandState :=
  ⟨{ cipher := 2, mode := 3, nonce := [], authenticate := 1, id := [], keyHash := 7, keyLength := 512, entropy := 3, level := 6, hmac := 7, chunksize := 262144, version := version },
    none, none, none, none, none, true, false, false⟩

/-- How an argument is left: with the next one; with the usage (which exits with 0); with a list or the version (which exit with 0); or with an exception. -/
inductive CommandStep where
  | go (st : CommandState) (args : List (List Byte))
  | usage
  | exit
  | failed
  deriving DecidableEq

/-- encipher.c:247-252 and the like: `+` does nothing; otherwise the next argument is the value of the option. -/
def withArgument (option : List Byte) (args : List (List Byte)) (st : CommandState) (f : List Byte → List (List Byte) → Res CommandStep) : Res CommandStep :=
  if option.head? = some (asc '+') then .ok (.go st args)
  else match args with
    | [] => .ok .failed
    | a :: args => f a args

/-- encipher.c:253-258 and the like: `ParseWizardOption`; negative values are unrecognized. -/
def withOption (env : CommandEnv) (table : List OptionInfo) (a : List Byte) (f : BitVec 64 → CommandStep) : Res CommandStep := do
  match ← parseOption cLocaleLower table false env.junk a with
  | none => .ok .failed
  | some v => if v.msb then .ok .failed else .ok (f v)

/-- A floating point number as `size_t` or `unsigned int` of `w` bits; it is undefined if it does not fit. -/
def asUnsigned (w : Nat) (v : Int) : Res Nat := if 0 ≤ v ∧ v < 2 ^ w then .ok v.toNat else .ub

/-- encipher.c:240-267 -/
def optionA (env : CommandEnv) (option : List Byte) (args : List (List Byte)) (st : CommandState) : Res CommandStep :=
  if keyIs (option.drop 1) "authenticate" then
    withArgument option args st fun a args => withOption env authenticateOptions a fun v =>
      if v = 2 then .failed else .go { st with settings := { st.settings with authenticate := v } } args
  else .ok .failed

/-- encipher.c:268-310 -/
def optionC (env : CommandEnv) (option : List Byte) (args : List (List Byte)) (st : CommandState) : Res CommandStep :=
  if keyIs (option.drop 1) "cipher" then
    withArgument option args st fun a args => withOption env cipherOptions a fun v => .go { st with settings := { st.settings with cipher := v } } args
  else if keyIs option "-chunksize" then
    withArgument option args st fun a args =>
      match env.number a with
      | none => .ok .failed
      | some v => do .ok (.go { st with settings := { st.settings with chunksize := ← asUnsigned 64 v } } args)
  else .ok .failed

/-- encipher.c:311-331 -/
def optionD (env : CommandEnv) (option : List Byte) (args : List (List Byte)) (st : CommandState) : Res CommandStep :=
  if keyIs option "-debug" then
    match args with
    | [] => .ok .failed
    | a :: args => if env.events a then .ok (.go st args) else .ok .failed
  else .ok .failed

/-- encipher.c:332-352 -/
def optionE (env : CommandEnv) (option : List Byte) (args : List (List Byte)) (st : CommandState) : Res CommandStep :=
  if keyIs (option.drop 1) "entropy" then
    withArgument option args st fun a args => withOption env entropyOptions a fun v => .go { st with settings := { st.settings with entropy := v } } args
  else .ok .failed

/-- encipher.c:353-379 -/
def optionH (env : CommandEnv) (option : List Byte) (args : List (List Byte)) (st : CommandState) : Res CommandStep :=
  if keyIs (option.drop 1) "hmac" then
    withArgument option args st fun a args => withOption env hashOptions a fun v => .go { st with settings := { st.settings with hmac := v } } args
  else if keyIs (option.drop 1) "help" ∨ keyIs (option.drop 1) "-help" then .ok .usage
  else .ok .failed

/-- encipher.c:380-425. The length of the key is the number in the option itself (407-408), not in its argument; if there is none `strtod` is 0. -/
def optionK (env : CommandEnv) (option : List Byte) (args : List (List Byte)) (st : CommandState) : Res CommandStep :=
  if keyIs (option.drop 1) "key" then
    withArgument option args st fun a args => withOption env hashOptions a fun v => .go { st with settings := { st.settings with keyHash := v } } args
  else if keyIs (option.drop 1) "key-length" then
    withArgument option args st fun _ args => do
      .ok (.go { st with settings := { st.settings with keyLength := BitVec.ofNat 32 (← asUnsigned 32 ((env.number option).getD 0)) } } args)
  else if keyIs (option.drop 1) "keyring" then withArgument option args st fun a args => .ok (.go { st with keyring := some a } args)
  else .ok .failed

/-- encipher.c:426-482. `-log` (468-478) does nothing with its argument. -/
def optionL (env : CommandEnv) (option : List Byte) (args : List (List Byte)) (st : CommandState) : Res CommandStep :=
  if keyIs option "-level" then
    withArgument option args st fun a args => withOption env entropyLevelOptions a fun v => .go { st with settings := { st.settings with level := v.setWidth 32 } } args
  else if keyIs option "-list" then
    withArgument option args st fun a _ => if keyIs a "configure" then .ok .exit else withOption env listOptions a fun _ => .exit
  else if keyIs (option.drop 1) "log" then withArgument option args st fun a args => if asc '%' ∈ a then .ok (.go st args) else .ok .failed
  else .ok .failed

/-- encipher.c:483-506 -/
def optionM (env : CommandEnv) (option : List Byte) (args : List (List Byte)) (st : CommandState) : Res CommandStep :=
  if keyIs (option.drop 1) "mode" then
    withArgument option args st fun a args => withOption env modeOptions a fun v => .go { st with settings := { st.settings with mode := v } } args
  else .ok .failed

/-- encipher.c:507-534 -/
def optionP (option : List Byte) (args : List (List Byte)) (st : CommandState) : Res CommandStep :=
  if keyIs (option.drop 1) "passphrase" then withArgument option args st fun a args => .ok (.go { st with passphrase := some a } args)
  else if keyIs (option.drop 1) "properties" then withArgument option args st fun a args => .ok (.go { st with properties := some a } args)
  else .ok .failed

/-- encipher.c:535-545 -/
def optionT (option : List Byte) (args : List (List Byte)) (st : CommandState) : Res CommandStep :=
  if keyIs (option.drop 1) "true-random" then .ok (.go { st with trueRandom := option.head? == some (asc '-') } args) else .ok .failed

/-- encipher.c:546-563 -/
def optionV (option : List Byte) (args : List (List Byte)) (st : CommandState) : Res CommandStep :=
  if keyIs (option.drop 1) "verbose" then .ok (.go { st with verbose := option.head? == some (asc '-') } args)
  else if keyIs option "-version" then .ok .exit
  else .ok .failed

/-- encipher.c:229-239 -/
def optionParen (option : List Byte) (args : List (List Byte)) (st : CommandState) : Res CommandStep :=
  if keyIs (option.drop 1) "(de)compress" then .ok (.go { st with compress := option.head? == some (asc '-') } args) else .ok .failed

/-- encipher.c:216-226: the name of a file. -/
def nameOfFile (option : List Byte) (args : List (List Byte)) (st : CommandState) : CommandStep :=
  match st.plain, st.cipherName with
  | none, _ => .go { st with plain := some option } args
  | some _, none => .go { st with cipherName := some option } args
  | some _, some _ => .usage

/-- encipher.c:227-570: the letter behind the sign decides. -/
def commandOption (env : CommandEnv) (option : List Byte) (args : List (List Byte)) (st : CommandState) : Res CommandStep :=
  match option.drop 1 with
  | [] => .ok .failed
  | c :: _ =>
    if c = asc '(' then optionParen option args st
    else if c = asc 'a' then optionA env option args st
    else if c = asc 'c' then optionC env option args st
    else if c = asc 'd' then optionD env option args st
    else if c = asc 'e' then optionE env option args st
    else if c = asc 'h' then optionH env option args st
    else if c = asc 'k' then optionK env option args st
    else if c = asc 'l' then optionL env option args st
    else if c = asc 'm' then optionM env option args st
    else if c = asc 'p' then optionP option args st
    else if c = asc 't' then optionT option args st
    else if c = asc 'v' then optionV option args st
    else .ok .failed

/-- encipher.c:215-570: one turn of the loop. -/
def commandStep (env : CommandEnv) (option : List Byte) (args : List (List Byte)) (st : CommandState) : Res CommandStep :=
  if isWizardOption option = false then .ok (nameOfFile option args st) else commandOption env option args st

/-- How the command line is left: the content is enciphered with what was given; or see `CommandStep`. -/
inductive CommandOut where
  | run (st : CommandState) (plain cipherName : List Byte)
  | usage
  | exit
  | failed
  deriving DecidableEq

/-- encipher.c:213-577: the loop, and what is behind it. `fuel` is at least the number of arguments. -/
def commandLoop (env : CommandEnv) : Nat → List (List Byte) → CommandState → Res CommandOut
  | _, [], st =>
    match st.plain, st.cipherName with
    | some p, some c => .ok (.run st p c)
    | _, _ => .ok .usage
  | 0, _ :: _, _ => .ub
  | fuel + 1, option :: args, st => do
    match ← commandStep env option args st with
    | .go st args => commandLoop env fuel args st
    | .usage => .ok .usage
    | .exit => .ok .exit
    | .failed => .ok .failed

/-- encipher.c:143-588 `EncipherCommand`; `args` are the arguments behind the name of the program, after `ExpandFilenames` (Model/Expand.lean). -/
def encipherCommand (env : CommandEnv) (version : List Byte) (args : List (List Byte)) : Res CommandOut :=
  if args.length = 1 ∧ (args.any fun o => keyIs (o.drop 1) "version" || keyIs (o.drop 1) "-version") then .ok .exit
  else if args.length < 2 then .ok .usage
  else commandLoop env args.length args (commandStart version)

end Wizard

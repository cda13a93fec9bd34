import Verif.Model.Basic
/-! resource.c: the counters and limits of the resources.  Every call holds one semaphore from before its first access to the
counters until after its last (resource.c:404, 482 and alike), so concurrent calls act like some sequence of calls; the model has
sequences of calls.  The log messages are left out. -/
namespace Wizard

/-- resource_.h:32-40 `ResourceType`, without the undefined one, which every call ignores. -/
inductive Resource where
  | area | memory | map | disk | file
  deriving DecidableEq, Repr

/-- The value of a 64-bit pattern as a `WizardOffsetType` (signed). -/
def signed64 (x : Int) : Int := (x + 2 ^ 63) % 2 ^ 64 - 2 ^ 63

/-- resource.c:62 `WizardResourceInfinity`. -/
def resourceInfinity : Nat := 2 ^ 64 - 1

/-- resource.c:67-82 `struct _ResourceInfo`: the counters are signed 64-bit, the limits unsigned 64-bit. -/
structure ResourceInfo where
  used : Resource → Int
  limit : Resource → Nat

/-- resource.c:90-103: the initial values. -/
def initialResources : ResourceInfo where
  used := fun _ => 0
  limit := fun
    | .area => 1536 * 1024 * 1024 / 8
    | .memory => 1536 * 1024 * 1024
    | .map => 3072 * 1024 * 1024
    | .disk => resourceInfinity
    | .file => 768

/-- Assign one counter. -/
def ResourceInfo.setUsed (s : ResourceInfo) (t : Resource) (v : Int) : ResourceInfo :=
  { s with used := fun x => if x = t then v else s.used x }

/-- resource.c:388-489 `AcquireWizardResource`.  The addition is unsigned; the subtraction of a refused request (430 and alike) is
signed, and its overflow undefined behaviour. -/
def acquireResource (s : ResourceInfo) (t : Resource) (size : Nat) : Res (Bool × ResourceInfo) :=
  match t with
  | .area => .ok (decide (s.limit .area = resourceInfinity ∨ size < s.limit .area), s.setUsed .area (signed64 size))
  | t =>
    let c := signed64 (s.used t + size)
    if s.limit t = resourceInfinity ∨ c < signed64 (s.limit t) then .ok (true, s.setUsed t c)
    else
      let d := c - signed64 size
      if d < -2 ^ 63 ∨ 2 ^ 63 ≤ d then .ub else .ok (false, s.setUsed t d)

/-- resource.c:746-816 `RelinquishWizardResource`; a failed assertion (770 and alike) aborts the process. -/
def relinquishResource (s : ResourceInfo) (t : Resource) (size : Nat) : Res ResourceInfo :=
  match t with
  | .area => .ok (s.setUsed .area (signed64 size))
  | t =>
    let c := signed64 (s.used t - size)
    if c < 0 then .ub else .ok (s.setUsed t c)

/-- resource.c:554-598 `GetWizardResource`. -/
def getResource (s : ResourceInfo) (t : Resource) : Nat := (s.used t % 2 ^ 64).toNat

/-- resource.c:1019-1057 `SetWizardResourceLimit`. -/
def setResourceLimit (s : ResourceInfo) (t : Resource) (limit : Nat) : ResourceInfo :=
  { s with limit := fun x => if x = t then limit else s.limit x }

/-- resource.c:620-664 `GetWizardResourceLimit`. -/
def getResourceLimit (s : ResourceInfo) (t : Resource) : Nat := s.limit t

/-- resource.c:902-917: the default of the memory limit; `pages` and `pagesize` are what `sysconf` reports (negative: unknown). -/
def defaultMemory (pages pagesize : Int) : Nat :=
  if pagesize ≤ 0 ∨ pages ≤ 0 then 2048
  else (((pages + 512).tdiv 1024 * (pagesize + 512).tdiv 1024) % 2 ^ 64).toNat

/-- resource.c:887-963 `ResourceComponentGenesis` without limits in the environment; `files` is the number of files `sysconf`
reports (`3L*files` is taken not to overflow). -/
def resourceGenesis (pages pagesize files : Int) : ResourceInfo :=
  let memory := defaultMemory pages pagesize
  let s := setResourceLimit initialResources .area (memory / 8)
  let s := setResourceLimit s .memory memory
  let s := setResourceLimit s .map (2 * memory % 2 ^ 64)
  setResourceLimit s .file ((max ((3 * files).tdiv 4) 64) % 2 ^ 64).toNat

/-- resource.c:250-359 `AcquireUniqueFileResource`, its effect on the counters: `opens` tells whether a file could be created.
The map of temporary files is left out. -/
def acquireUniqueFile (s : ResourceInfo) (opens : Bool) : Res (Bool × ResourceInfo) :=
  if opens then acquireResource s .file 1 else .ok (false, s)

end Wizard

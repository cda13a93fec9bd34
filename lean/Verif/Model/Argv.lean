import Verif.Model.StringOps
/-!
Model of `StringToArgv` (/repo/wizard/string.c).

A text is the list of its bytes before the terminating zero; a pointer into it is the list of the bytes from there on, and reading at the end gives the zero.
`isspace` is that of the "C" locale. Simplifications: allocation succeeds, and there are fewer than 2^31 arguments.
-/
namespace Wizard

/-- string.c:2120-2121 and 2141-2142: `while (isspace(*p)) p++`. -/
def argSkip (p : List Byte) : List Byte := p.dropWhile isSpace

/-- string.c:2129-2130 and 2170-2171: `while (!isspace(*p) && *p) p++`. -/
def argTail (p : List Byte) : List Byte := p.dropWhile fun c => !isSpace c

/-- string.c:2126, 2128, 2147 and 2153: `for (p++; (*p != quote) && *p; p++) ;` with `p` behind the quote: where it stops. -/
def argClose (quote : Byte) (p : List Byte) : List Byte := p.dropWhile (· != quote)

/-- string.c:2125-2130: from the beginning of an argument to its end, when arguments are counted. -/
def argPass (p : List Byte) : List Byte :=
  let p := (match p with | c :: r => if c = asc '"' then argClose (asc '"') r else c :: r | [] => [])
  let p := (match p with | c :: r => if c = asc '\'' then argClose (asc '\'') r else c :: r | [] => [])
  argTail p

theorem argPass_lt {c : Byte} (h : isSpace c = false) (r : List Byte) : (argPass (c :: r)).length < (c :: r).length := by
  have hd : ∀ (f : Byte → Bool) (l : List Byte), (l.dropWhile f).length ≤ l.length := fun f l => (List.dropWhile_suffix f).length_le
  by_cases h1 : c = asc '"'
  · have e : argPass (c :: r) = argTail (match argClose (asc '"') r with | c :: r => if c = asc '\'' then argClose (asc '\'') r else c :: r | [] => []) := by
      unfold argPass; simp only [if_pos h1]
    rw [e]
    refine Nat.lt_of_le_of_lt (hd _ _) ?_
    have h2 := hd (· != asc '"') r
    unfold argClose
    cases h : List.dropWhile (· != asc '"') r with
    | nil => simp
    | cons d s =>
      rw [h] at h2
      simp only []
      split
      · have := hd (· != asc '\'') s; simp at *; omega
      · simp at *; omega
  · by_cases h2 : c = asc '\''
    · have e : argPass (c :: r) = argTail (argClose (asc '\'') r) := by unfold argPass; simp only [if_neg h1, if_pos h2]
      rw [e]
      have h3 := hd (fun c => !isSpace c) (argClose (asc '\'') r)
      have h4 := hd (· != asc '\'') r
      unfold argTail argClose at *
      simp at *
      omega
    · have e : argPass (c :: r) = argTail (c :: r) := by unfold argPass; simp only [if_neg h1, if_neg h2]
      rw [e, argTail, List.dropWhile_cons, if_pos (by rw [h]; rfl)]
      have := hd (fun c => !isSpace c) r
      simp; omega

theorem argSkip_head {p : List Byte} {c : Byte} {r : List Byte} (h : argSkip p = c :: r) : isSpace c = false := by
  have := List.head?_dropWhile_not isSpace p
  rw [show p.dropWhile isSpace = c :: r from h] at this
  simpa using this

/-- string.c:2118-2131: the number of arguments. -/
def argCount (p : List Byte) : Nat :=
  match h : argSkip p with
  | [] => 0
  | c :: r => argCount (argPass (c :: r)) + 1
termination_by p.length
decreasing_by
  have h1 := argPass_lt (argSkip_head h) r
  have h2 : (argSkip p).length ≤ p.length := (List.dropWhile_suffix isSpace).length_le
  rw [h] at h2
  omega

/-- string.c:2143-2157 and 2167-2169: an argument, and where `q` is then. -/
def argTake (p : List Byte) : List Byte × List Byte :=
  match p with
  | [] => ([], [])
  | c :: r =>
    if c = asc '"' then (r.takeWhile (· != asc '"'), argClose (asc '"') r)
    else if c = asc '\'' then (r.takeWhile (· != asc '\''), argClose (asc '\'') r)
    else ((c :: r).takeWhile (fun c => !isSpace c), argTail (c :: r))

/-- string.c:2138-2172: so many arguments, and where `p` is then. -/
def argList : Nat → List Byte → List (List Byte) × List Byte
  | 0, p => ([], p)
  | n + 1, p =>
    let (a, q) := argTake (argSkip p)
    let (as, p) := argList n (argTail q)
    (a :: as, p)

/-- string.c:2100-2175 `StringToArgv`: the arguments and their number. -/
def stringToArgv (text : Option (List Byte)) : Option (List (List Byte)) × Nat :=
  match text with
  | none => (none, 0)
  | some text => (some (argList (argCount text) text).1, argCount text)

end Wizard
